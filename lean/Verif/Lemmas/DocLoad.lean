import Verif.Lemmas.Lost
/-!
Loading the cross reference sections of a document with incremental updates.
-/

namespace Pdf
open Spec St Props

theorem blank_of_white : ∀ {l : Bytes}, (∀ b ∈ l, IsWhite b) → Blank l
  | [], _ => .nil
  | b :: l, h => .ws (h b (by simp)) (blank_of_white fun c hc => h c (by simp [hc]))

theorem blank_append {a b : Bytes} (ha : Blank a) (hb : Blank b) : Blank (a ++ b) := by
  induction ha with
  | nil => exact hb
  | ws h _ ih => exact .ws h ih
  | @comment c e t h1 h2 _ ih =>
    have : 37 :: c ++ e :: t ++ b = 37 :: c ++ e :: (t ++ b) := by simp
    rw [this]
    exact .comment h1 h2 ih

/-- white space up to its first line break -/
theorem first_break : ∀ {r : Bytes}, (10 ∈ r ∨ 13 ∈ r) → ∃ a e b, r = a ++ e :: b ∧ (∀ c ∈ a, c ≠ 10 ∧ c ≠ 13) ∧ (e = 10 ∨ e = 13)
  | [], h => by rcases h with h | h <;> cases h
  | x :: r, h => by
    by_cases hx : x = 10 ∨ x = 13
    · exact ⟨[], x, r, rfl, by simp, hx⟩
    · have h' : 10 ∈ r ∨ 13 ∈ r := by
        rcases h with h | h
        · rcases List.mem_cons.1 h with h | h
          · exact absurd (.inl h.symm) hx
          · exact .inl h
        · rcases List.mem_cons.1 h with h | h
          · exact absurd (.inr h.symm) hx
          · exact .inr h
      obtain ⟨a, e, b, e1, e2, e3⟩ := first_break h'
      refine ⟨x :: a, e, b, by rw [e1]; rfl, ?_, e3⟩
      intro c hc
      rcases List.mem_cons.1 hc with rfl | hc
      · exact ⟨fun h => hx (.inl h), fun h => hx (.inr h)⟩
      · exact e2 c hc

theorem eof_blank {r : Bytes} (hr : ∀ b ∈ r, IsWhite b) (h : 10 ∈ r ∨ 13 ∈ r) : Blank (b!"%%EOF" ++ r) := by
  obtain ⟨a, e, b, rfl, h2, h3⟩ := first_break h
  have : b!"%%EOF" ++ (a ++ e :: b) = 37 :: (b!"%EOF" ++ a) ++ e :: b := by simp
  rw [this]
  refine .comment ?_ h3 (blank_of_white fun c hc => hr c (by simp [hc]))
  intro c hc
  rcases List.mem_append.1 hc with hc | hc
  · have : ∀ c ∈ b!"%EOF", c ≠ 10 ∧ c ≠ 13 := by decide
    exact this c hc
  · exact h2 c hc

theorem eof_skip {r : Bytes} (hr : ∀ b ∈ r, IsWhite b) : skipWs false (b!"%%EOF" ++ r) = (b!"%%EOF" ++ r).length := by
  by_cases h : 10 ∈ r ∨ 13 ∈ r
  · have := skipWs_blank (eof_blank hr h) []
    simpa [skipWs] using this
  · refine skipWs_open (.inr ⟨b!"%EOF" ++ r, rfl, ?_⟩)
    intro c hc
    rcases List.mem_append.1 hc with hc | hc
    · have : ∀ c ∈ b!"%EOF", c ≠ 10 ∧ c ≠ 13 := by decide
      exact this c hc
    · exact ⟨fun e => h (.inl (e ▸ hc)), fun e => h (.inr (e ▸ hc))⟩

/-- With at most one byte left there is no dictionary. -/
theorem readDictionary_end {file : Bytes} {s : PS} (h : file.length ≤ s.pos + 1) : ∃ s', readDictionary file noDec s = .ok ([], s') := by
  have hws := consumeWs_step file s
  have hpos : file.length ≤ (consumeWs file s).pos + 1 := by rw [hws.pos]; omega
  have hlen : (readN file (consumeWs file s) 2).1.length ≤ 1 := by
    rw [readN]
    split
    · simp only [List.length_take, List.length_drop]; omega
    · split
      · simp only [List.length_take, List.length_drop]; omega
      · simp
  rw [readDictionary, readDictHead]
  generalize readN file (consumeWs file s) 2 = q at hlen
  obtain ⟨q1, q2⟩ := q
  dsimp only at hlen ⊢
  have : (q1 == b!"<<") = false := by
    have : q1 ≠ b!"<<" := by
      intro h; rw [h] at hlen; revert hlen; decide
    simpa using this
  rw [this]
  exact ⟨_, rfl⟩

theorem readInt_end {file : Bytes} {s : PS} (h : skipWs false (rest file s) = (rest file s).length) (hin : s.pos ≤ file.length) :
    ∃ s', readInt file s = ((0, false), s') ∧ file.length ≤ s'.pos + 1 := by
  have hw := consumeWs_step file s
  have hr := rest_eq (file := file) hw.pos
  rw [h, List.drop_length] at hr
  rw [readInt]
  simp only
  rw [readByte_nil hr]
  refine ⟨_, rfl, ?_⟩
  have hp := hw.pos
  rw [h, rest, List.length_drop] at hp
  simp only [unreadByte]
  split
  · dsimp only; omega
  · omega

/-- What loading the section at the `xref` of `startxref` reads: nothing, and then the dictionary of the next object, if it has one. -/
structure WordReads (file : Bytes) (off : Nat) (ps : PS) (d : Dict) : Prop where
  reads : ∃ ps1 ps2 ps3 kw ps4, readKeyword file (seek ps off) = (b!"xref", ps1) ∧ tableSections file (file.length + 1) ps1 [] = ([], ps2) ∧
    readKeyword file ps2 = (kw, ps3) ∧ readDictionary file noDec ps3 = .ok (d, ps4)

theorem word_start {file : Bytes} {off : Nat} (ps : PS) {w t : Bytes} {ds : List Nat} (hw : ∀ b ∈ w, IsWhite b) (hne : w ≠ []) (hd : ∀ d ∈ ds, d < 10) (hds : ds ≠ []) (ht : NoDigit t)
    (hin : file.drop off = b!"xref" ++ (w ++ (ds.map decDigit ++ t))) (hoff : off ≤ file.length) :
    ∃ ps1 y ps2, readKeyword file (seek ps off) = (b!"xref", ps1) ∧ readInt file ps1 = ((y, true), ps2) ∧ rest file ps2 = t ∧ Grid file off ps2 := by
  have hl0 : rest file (seek ps off) = [] ++ (b!"xref" ++ (w ++ (ds.map decDigit ++ t))) := by rw [rest, seek_pos, hin]; rfl
  have hst : Stops (w ++ (ds.map decDigit ++ t)) := by
    cases w with
    | nil => exact absurd rfl hne
    | cons b w => rintro c u ⟨⟩; exact fun h => h.1 (hw b (by simp))
  obtain ⟨ps1, e1, -, l1⟩ := readKeyword_word .nil (by decide) (by decide) hst hl0
  have hg1 : Grid file off ps1 := by
    have := readKeyword_inv (grid_inv file off) (grid_seek ps hoff); rw [e1] at this; exact this
  obtain ⟨y, -, h1⟩ := lInt_digits (blank_of_white hw) ds hd hds t ht
  rw [← l1] at h1
  obtain ⟨ps2, e2, st2⟩ := readInt_some h1
  refine ⟨ps1, y, ps2, e1, e2, ?_, ?_⟩
  · rw [rest_eq st2.pos, l1, ← List.append_assoc, List.drop_left' (by simp)]
  · have := readInt_inv (grid_inv file off) hg1; rw [e2] at this; exact this

/-- at the end of the file -/
theorem word_last {file : Bytes} {off : Nat} (ps : PS) {w w' r : Bytes} {ds : List Nat} (hw : ∀ b ∈ w ++ w', IsWhite b) (hne : w ≠ []) (hd : ∀ d ∈ ds, d < 10) (hds : ds ≠ [])
    (hr : ∀ b ∈ r, IsWhite b) (hin : file.drop off = b!"xref" ++ (w ++ (ds.map decDigit ++ (w' ++ (b!"%%EOF" ++ r))))) (hoff : off ≤ file.length) : WordReads file off ps [] := by
  have hw' : Blank w' := blank_of_white fun b hb => hw b (by simp [hb])
  have hnd : NoDigit (w' ++ (b!"%%EOF" ++ r)) := blank_noDigit hw' (by rintro c u ⟨⟩; decide)
  obtain ⟨ps1, y, ps2, e1, e2, l2, hg2⟩ := word_start ps (fun b hb => hw b (by simp [hb])) hne hd hds hnd hin hoff
  obtain ⟨ps3, e3, h3⟩ := readInt_end (s := ps2) (by rw [l2, skipWs_blank hw', eof_skip hr]; simp only [List.length_append]) (by
    obtain ⟨h1, k, h2, -⟩ := hg2; omega)
  have hk := (readKeyword_spec file ps3).2.pos
  obtain ⟨s', h4⟩ := readDictionary_end (file := file) (s := (readKeyword file ps3).2) (by rw [hk]; omega)
  refine ⟨ps1, ps3, _, _, s', e1, ?_, rfl, h4⟩
  rw [tableSections, e2]; dsimp only
  rw [e3]

theorem objAt_dict_nodup {d : Dict} {t r : Bytes} {e : List Err} (h : ObjAt (.dict d) t r e) : (d.map (·.1)).Nodup := by
  generalize ho : Obj.dict d = o at h
  cases h with
  | dict _ => cases ho; exact Props.dictOf_nodup _
  | _ => cases ho

/-- in front of an object -/
theorem word_next {file : Bytes} {off : Nat} (ps : PS) {w w' r : Bytes} {ds : List Nat} (hw : ∀ b ∈ w ++ w', IsWhite b) (hne : w ≠ []) (hd : ∀ d ∈ ds, d < 10) (hds : ds ≠ [])
    (hr : ∀ b ∈ r, IsWhite b) (hbr : 10 ∈ r ∨ 13 ∈ r) {o : IndObj} {es : List Err} {T R : Bytes} (hT : RawText o es T)
    (hin : file.drop off = b!"xref" ++ (w ++ (ds.map decDigit ++ (w' ++ (b!"%%EOF" ++ (r ++ (T ++ R))))))) (hoff : off ≤ file.length) :
    ∃ d, WordReads file off ps d ∧ (d.map (·.1)).Nodup ∧ (d = [] ∨ o.value = .dict d) := by
  have hw' : Blank w' := blank_of_white fun b hb => hw b (by simp [hb])
  obtain ⟨ns, gs, hdr, v, t, q, hh, rfl, hv, hstop, hobj, -⟩ := hT.body
  cases hh with
  | @mk v0 _ v1 _ v2 hv0 hns hns0 hv1 hv1ne hgs hgs0 hv2 =>
    have hB : Blank (w' ++ (b!"%%EOF" ++ r)) := blank_append hw' (eof_blank hr hbr)
    have hin' : file.drop off = b!"xref" ++ (w ++ (ds.map decDigit ++ ((w' ++ (b!"%%EOF" ++ r)) ++ (v0 ++ (ns.map decDigit ++ (v1 ++ (gs.map decDigit ++ (v2 ++ (b!"obj" ++ (v ++ (t ++ (q ++ R)))))))))))) := by
      rw [hin]; simp only [List.append_assoc]
    clear hin
    have hne2 : NoDigit ((w' ++ (b!"%%EOF" ++ r)) ++ (v0 ++ (ns.map decDigit ++ (v1 ++ (gs.map decDigit ++ (v2 ++ (b!"obj" ++ (v ++ (t ++ (q ++ R)))))))))) := by
      rw [List.append_assoc, List.append_assoc]
      exact blank_noDigit hw' (by rintro c u ⟨⟩; decide)
    obtain ⟨ps1, y, ps2, e1, e2, l2, hg2⟩ := word_start ps (fun b hb => hw b (by simp [hb])) hne hd hds hne2 hin' hoff
    have hn3 : NoDigit (v1 ++ (gs.map decDigit ++ (v2 ++ (b!"obj" ++ (v ++ (t ++ (q ++ R))))))) := by
      cases hv1 with
      | nil => exact absurd rfl hv1ne
      | ws hb _ =>
        rintro c u ⟨⟩
        rcases hb with rfl | rfl | rfl | rfl | rfl | rfl <;> decide
      | comment _ _ _ => rintro c u ⟨⟩; decide
    have hn4 : NoDigit (v2 ++ (b!"obj" ++ (v ++ (t ++ (q ++ R))))) := blank_noDigit hv2 (by rintro c u ⟨⟩; decide)
    obtain ⟨y2, -, k3⟩ := lInt_digits (blank_append hB hv0) ns hns hns0 _ hn3
    rw [List.append_assoc, ← l2] at k3
    obtain ⟨ps3, e3, st3⟩ := readInt_some k3
    have l3 : rest file ps3 = v1 ++ (gs.map decDigit ++ (v2 ++ (b!"obj" ++ (v ++ (t ++ (q ++ R)))))) := by
      rw [rest_eq st3.pos, l2]
      have : (w' ++ (b!"%%EOF" ++ r)) ++ (v0 ++ (ns.map decDigit ++ (v1 ++ (gs.map decDigit ++ (v2 ++ (b!"obj" ++ (v ++ (t ++ (q ++ R))))))))) =
        ((w' ++ (b!"%%EOF" ++ r)) ++ v0 ++ ns.map decDigit) ++ (v1 ++ (gs.map decDigit ++ (v2 ++ (b!"obj" ++ (v ++ (t ++ (q ++ R))))))) := by simp only [List.append_assoc]
      rw [this, List.drop_left' (by simp only [List.length_append, List.length_map])]
    obtain ⟨y3, -, k4⟩ := lInt_digits hv1 gs hgs hgs0 _ hn4
    rw [← l3] at k4
    obtain ⟨ps4, e4, st4⟩ := readInt_some k4
    have l4 : rest file ps4 = v2 ++ (b!"obj" ++ (v ++ (t ++ (q ++ R)))) := by
      rw [rest_eq st4.pos, l3, ← List.append_assoc, List.drop_left' (by simp)]
    have hz : ∀ z : Bytes, skipWs false (b!"obj" ++ z) = 0 := fun z => skipWs_zero (by decide) (by decide)
    have hnone : ∀ z : Bytes, lInt (b!"obj" ++ z) = none := fun z => lInt_nondigit (by decide) (by decide) (by decide) _
    have fail : ∀ (s : PS) (x : Bytes), Blank x → rest file s = x ++ (b!"obj" ++ (v ++ (t ++ (q ++ R)))) →
        ∃ s', readInt file s = ((0, false), s') ∧ rest file s' = b!"obj" ++ (v ++ (t ++ (q ++ R))) := by
      intro s x hx hl
      obtain ⟨s', f1, -, f3, -⟩ := readInt_none (file := file) (s := s) (by rw [hl, lInt_blank hx, hnone]; rfl)
      have hsk : skipWs false (rest file s) = x.length := by rw [hl, skipWs_blank hx, hz]; rfl
      have hcw : rest file (consumeWs file s) ≠ [] := by
        rw [rest_eq (consumeWs_step file s).pos, hsk, hl, List.drop_left]
        intro h; cases h
      refine ⟨s', f1, ?_⟩
      rw [rest_eq (f3 hcw).pos, hsk, hl, List.drop_left]
    obtain ⟨ps5, e5, l5⟩ := fail ps4 v2 hv2 l4
    obtain ⟨ps6, e6, l6⟩ := fail ps5 [] .nil l5
    have hlen : ∃ m, file.length = m + 1 := by
      have := rest_length_le file ps5
      rw [l5] at this
      refine ⟨file.length - 1, ?_⟩
      simp only [List.length_append, List.length_cons] at this
      omega
    obtain ⟨m, hm⟩ := hlen
    -- what `tableSections` gives
    obtain ⟨ps7, e7, l7⟩ : ∃ ps7, tableSections file (file.length + 1) ps1 [] = ([], ps7) ∧ rest file ps7 = b!"obj" ++ (v ++ (t ++ (q ++ R))) := by
      rw [hm, tableSections, e2]; dsimp only
      rw [e3]; dsimp only
      cases hy : y2.toNat with
      | zero =>
        refine ⟨ps5, ?_, l5⟩
        rw [tableEntries]; dsimp only
        rw [tableSections, e4]; dsimp only
        rw [e5]
      | succ k =>
        refine ⟨ps6, ?_, l6⟩
        rw [tableEntries, e4]; dsimp only
        rw [e5]; dsimp only
        rw [tableSections, e6]
    have hg7 : Grid file off ps7 := by
      have h1 := readKeyword_inv (grid_inv file off) (grid_seek ps hoff)
      rw [e1] at h1
      have := tableSections_inv (grid_inv file off) (file.length + 1) ps1 [] h1; rw [e7] at this; exact this
    obtain ⟨ps8, e8, st8, l8⟩ := readKeyword_word (w := []) .nil (k := b!"obj") (by decide) (by decide) (hstop R) l7
    have hg8 : Grid file off ps8 := by
      have := readKeyword_inv (grid_inv file off) hg7; rw [e8] at this; exact this
    obtain ⟨d, ps9, e9⟩ := readDictionary_ok file ps8
    have hd9 := readDictionary_object hg8 hv (hobj R) l8 e9
    refine ⟨d, ⟨ps1, ps7, ps8, _, ps9, e1, e7, e8, e9⟩, ?_, hd9⟩
    rcases hd9 with rfl | hd9
    · simp
    · have := hobj R
      rw [hd9] at this
      exact objAt_dict_nodup this

/-- in front of a table -/
theorem word_table {file : Bytes} {off : Nat} (ps : PS) {w w' r : Bytes} {ds : List Nat} (hw : ∀ b ∈ w ++ w', IsWhite b) (hne : w ≠ []) (hd : ∀ d ∈ ds, d < 10) (hds : ds ≠ [])
    (hr : ∀ b ∈ r, IsWhite b) (hbr : 10 ∈ r ∨ 13 ∈ r) {subs : List (Nat × List Line)} {front T R : Bytes} (hT : TableText subs front) (hx : front = b!"xref" ++ T)
    (hin : file.drop off = b!"xref" ++ (w ++ (ds.map decDigit ++ (w' ++ (b!"%%EOF" ++ (r ++ (front ++ R))))))) (hoff : off ≤ file.length) : WordReads file off ps [] := by
  have hw' : Blank w' := blank_of_white fun b hb => hw b (by simp [hb])
  have hB : Blank (w' ++ (b!"%%EOF" ++ r)) := blank_append hw' (eof_blank hr hbr)
  -- what follows the word `xref` of the table
  obtain ⟨v, b, t, rfl, hv, hvne, hb, hb', hlt⟩ : ∃ v b t, T = v ++ b :: t ∧ Blank v ∧ v ≠ [] ∧ ¬ IsWhite b ∧ b ≠ 37 ∧ b ≠ 60 := by
    cases hT with
    | @mk w0 st w1 w2 ss h0 hst h1 h2 =>
      have e0 : w0 = [] := by
        cases h0 with
        | nil => rfl
        | ws hb _ =>
          obtain ⟨rfl, -⟩ := List.cons.inj hx
          exact absurd hb (by decide)
        | comment _ _ _ => cases hx
      subst e0
      obtain rfl : st ++ (w1 ++ (b!"trailer" ++ w2)) = T := List.append_cancel_left (as := b!"xref") hx
      cases hst with
      | nil => exact ⟨w1, 116, b!"railer" ++ w2, by simp, h1.1, h1.2, by decide, by decide, by decide⟩
      | @cons u a at' u1 ct ls lt ss t k1 k2 k3 k4 k5 k6 k7 =>
        cases k2 with
        | @mk es q1 q2 q3 =>
          cases es with
          | nil => exact absurd rfl q2
          | cons x es =>
            have hx9 := q1 x (by simp)
            refine ⟨u, decDigit x, _, by simp only [List.append_assoc, List.map_cons, List.cons_append]; rfl, k1.1, k1.2, ?_, ?_, ?_⟩ <;>
              (have : ∀ n, n < 10 → ¬ IsWhite (decDigit n) ∧ decDigit n ≠ 37 ∧ decDigit n ≠ 60 := by decide
               first | exact (this x hx9).1 | exact (this x hx9).2.1 | exact (this x hx9).2.2)
  subst hx
  have hin' : file.drop off = b!"xref" ++ (w ++ (ds.map decDigit ++ ((w' ++ (b!"%%EOF" ++ r)) ++ (b!"xref" ++ (v ++ (b :: t ++ R)))))) := by
    rw [hin]; simp only [List.append_assoc]
  clear hin
  have hnd : NoDigit ((w' ++ (b!"%%EOF" ++ r)) ++ (b!"xref" ++ (v ++ (b :: t ++ R)))) := by
    rw [List.append_assoc, List.append_assoc]
    exact blank_noDigit hw' (by rintro c u ⟨⟩; decide)
  obtain ⟨ps1, y, ps2, e1, e2, l2, hg2⟩ := word_start ps (fun b hb => hw b (by simp [hb])) hne hd hds hnd hin' hoff
  have hz : ∀ z : Bytes, skipWs false (b!"xref" ++ z) = 0 := fun z => skipWs_zero (by decide) (by decide)
  have hnone : ∀ z : Bytes, lInt (b!"xref" ++ z) = none := fun z => lInt_nondigit (by decide) (by decide) (by decide) _
  obtain ⟨ps3, e3, l3⟩ : ∃ s', readInt file ps2 = ((0, false), s') ∧ rest file s' = b!"xref" ++ (v ++ (b :: t ++ R)) := by
    obtain ⟨s', f1, -, f3, -⟩ := readInt_none (file := file) (s := ps2) (by rw [l2, lInt_blank hB, hnone]; rfl)
    have hsk : skipWs false (rest file ps2) = (w' ++ (b!"%%EOF" ++ r)).length := by rw [l2, skipWs_blank hB, hz]; rfl
    have hcw : rest file (consumeWs file ps2) ≠ [] := by
      rw [rest_eq (consumeWs_step file ps2).pos, hsk, l2, List.drop_left]
      intro h; cases h
    refine ⟨s', f1, ?_⟩
    rw [rest_eq (f3 hcw).pos, hsk, l2, List.drop_left]
  have hst : Stops (v ++ (b :: t ++ R)) := (gap_head ⟨hv, hvne⟩ _).stops
  obtain ⟨ps4, e4, -, l4⟩ := readKeyword_word (w := []) .nil (k := b!"xref") (by decide) (by decide) hst l3
  obtain ⟨ps5, e5⟩ := readDictionary_other (r := t ++ R) hv hb hb' hlt (by rw [l4]; rfl)
  refine ⟨ps1, ps3, ps4, _, ps5, e1, ?_, e4, e5⟩
  rw [tableSections, e2]; dsimp only
  rw [e3]

/-- Loading such a section. -/
theorem loadXref_word {cfg : Cfg} (get : Env → Int → M IndObj) (rs : Env → Resolver) {off : Nat} {s : LS} {d : Dict} (h : WordReads cfg.file off s.ps d) (hp : d.get? b!"Prev" = none) (f : Nat) :
    ∃ ps, loadXref cfg get rs (f + 1) off [] s = .ok ([(off : Int)], { s with ps := ps, trailer := s.trailer.merge d }) := by
  obtain ⟨ps1, ps2, ps3, kw, ps4, e1, e2, e3, e4⟩ := h.reads
  refine ⟨ps4, ?_⟩
  rw [loadXref, if_neg (by simp)]
  rw [liftM_bind (a := ()) (p := seek s.ps off) rfl]
  rw [liftM_bind (a := b!"xref") (p := ps1) (by show Res.ok _ = _; rw [← e1])]
  rw [if_pos rfl]
  rw [liftM_bind (a := []) (p := ps2) (by show Res.ok _ = _; rw [← e2])]
  rw [liftM_bind (a := kw) (p := ps3) (by show Res.ok _ = _; rw [← e3])]
  rw [liftM_bind (a := d) (p := ps4) (x := fun _ => readDictionary cfg.file noDec) e4]
  rw [liftM_bind (getInt_prev (.absent hp) _ _)]
  rfl

/-! ### Chains of tables -/

theorem lastFor_append {κ α : Type} [DecidableEq κ] (a b : List (κ × α)) (k : κ) : lastFor (a ++ b) k = (lastFor b k).or (lastFor a k) := by
  rw [lastFor, lastFor, lastFor, List.reverse_append, List.find?_append]
  cases b.reverse.find? fun p => p.1 = k <;> simp

theorem lastFor_none {κ α : Type} [DecidableEq κ] {l : List (κ × α)} {k : κ} : lastFor l k = none ↔ k ∉ l.map (·.1) := by
  rw [lastFor, Option.map_eq_none_iff, List.find?_eq_none]
  simp only [List.mem_reverse, decide_eq_true_eq, List.mem_map, not_exists, not_and]

theorem dictOf_get (es : List (Bytes × Obj)) (k : Bytes) : (dictOf es).get? k = lastFor es k := by
  have := Assoc.get?_foldl_set es [] k
  rw [dictOf, this]; simp [Assoc.get?]; rfl

theorem lastFor_nodup : ∀ {l : Dict}, (l.map (·.1)).Nodup → ∀ k, lastFor l k = l.get? k
  | [], _, k => rfl
  | (a, v) :: l, h, k => by
    rw [List.map_cons, List.nodup_cons] at h
    have e : lastFor ((a, v) :: l) k = (lastFor l k).or (lastFor [(a, v)] k) := lastFor_append [(a, v)] l k
    rw [e, lastFor_nodup h.2 k, Assoc.get?]
    by_cases ha : a = k
    · subst ha
      have : Assoc.get? l a = none := by
        cases hg : Assoc.get? l a with
        | none => rfl
        | some w => exact absurd (List.mem_map_of_mem (Assoc.mem_of_get? hg)) h.1
      rw [this]
      simp [lastFor]
    · simp [lastFor, ha]

/-- The section of an update is in the file at `p`. -/
inductive SectIn (cd : Codecs) (file : Bytes) (p : Nat) (u : Update) : Prop
  | table {subs trailer notes front dict gap r} : u.sect = .table subs trailer notes front dict gap → TableText subs front → front.length % 4096 ≠ 4095 → (∀ z, DictAny trailer dict z notes) →
      file.drop p = front ++ (60 :: 60 :: (dict ++ r)) → SectIn cd file p u
  | stream {subs w0 w1 w2 x D more extra r} : u.sect = .stream subs w0 w1 w2 p x → ObjectText cd x.obj x.notes x.text → file.drop p = x.text ++ r →
      x.obj.number ≠ 0 → x.obj.value = .dict D → x.obj.stream = some (dataOf w0 w1 w2 subs ++ extra) →
      (Assoc.get? D b!"Index" = some (.arr (indexOf subs)) ∨ Assoc.get? D b!"Index" = none ∧ ∃ fs, subs = [(0, fs)] ∧ Assoc.get? D b!"Size" = some (.num (.fin (fs.length : Nat)))) →
      Assoc.get? D b!"W" = some (.arr (.num (.fin (w0 : Nat)) :: .num (.fin (w1 : Nat)) :: .num (.fin (w2 : Nat)) :: more)) →
      w0 ≤ 2 ^ 48 → w1 ≤ 2 ^ 48 → w2 ≤ 2 ^ 48 → (∀ p ∈ subs, p.1 + p.2.length < 2 ^ 53 ∧ ∀ f ∈ p.2, Fits w0 w1 w2 f) → SectIn cd file p u

/-- Sections, the newest first; each names the place of the next, and the last one none, or a place where there is nothing.
The number is what loading them takes. -/
inductive Chain (cd : Codecs) (file : Bytes) : Nat → List (Nat × Update) → Prop
  | one {p u} : SectIn cd file p u → (dictOf u.sect.trailer).get? b!"Prev" = none → Chain cd file 1 [(p, u)]
  | lost {p u x} : SectIn cd file p u → (dictOf u.sect.trailer).get? b!"Prev" = some (.num x) → Lost file x.toInt → Chain cd file 2 [(p, u)]
  | cons {k : Nat} {p : Nat} {u : Update} {q : Nat} {v : Update} {c x} : SectIn cd file p u → (dictOf u.sect.trailer).get? b!"Prev" = some (.num x) → x.toInt = q → (∀ y ∈ (q, v) :: c, y.1 ≠ p) → Chain cd file k ((q, v) :: c) →
      Chain cd file (k + 1) ((p, u) :: (q, v) :: c)

/-- All entries of a chain, the oldest first. -/
def chainEntries (c : List (Nat × Update)) : List (Int × XrefEntry) := c.reverse.flatMap fun p => p.2.sect.entries

/-- All trailer entries of a chain, the oldest first. -/
def chainTrailer (c : List (Nat × Update)) : List (Bytes × Obj) := c.reverse.flatMap (·.2.sect.trailer)

/-- The same entry for `n`, up to an offset that is repaired later. -/
inductive Near (file : Bytes) (n : Int) (x x' : XrefEntry) : Prop
  | same : x' = x → Near file n x x'
  | moved {off : Nat} : x'.typ = x.typ → x'.generation = x.generation → x'.isEncrypted = x.isEncrypted → x'.offset = off → Usable file n off → Near file n x x'

/-- `r` is what `l` says, or `old`. -/
def Says (file : Bytes) (n : Int) (l old r : Option XrefEntry) : Prop :=
  match l with
  | none => r = old
  | some x => ∃ x', r = some x' ∧ Near file n x x'

theorem Says.refl {file : Bytes} {n : Int} {l old r : Option XrefEntry} (h : r = l.or old) : Says file n l old r := by
  cases l with
  | none => exact h
  | some x => exact ⟨x, h, .same rfl⟩

theorem Says.trans {file : Bytes} {n : Int} {l l' old r r' : Option XrefEntry} (h : Says file n l old r) (h' : Says file n l' r r') : Says file n (l'.or l) old r' := by
  cases l' with
  | none =>
    have h' : r' = r := h'
    rw [h']; exact h
  | some x => exact h'

theorem Says.typ {file : Bytes} {n : Int} {x : XrefEntry} {old r : Option XrefEntry} (h : Says file n (some x) old r) : ∃ x', r = some x' ∧ x'.typ = x.typ := by
  obtain ⟨x', h1, h2⟩ := h
  refine ⟨x', h1, ?_⟩
  cases h2 with
  | same h => rw [h]
  | moved a _ _ _ _ => exact a

/-- `s'` extends `s` by the entries and the trailer of a chain. -/
structure Adds (file : Bytes) (s s' : LS) (c : List (Nat × Update)) : Prop where
  xref : ∀ n, Says file n (lastFor (chainEntries c) n) (s.xref.get? n) (s'.xref.get? n)
  trailer : ∀ k, s'.trailer.get? k = (lastFor (chainTrailer c) k).or (s.trailer.get? k)
  sh : s'.sh = s.sh

/-- No number stands where the dictionary of an object starts. -/
theorem no_number {file : Bytes} {off : Nat} {n : Int} {w t r : Bytes} {D : Dict} {es : List Err} (hw : Blank w) (ht : ObjAt (.dict D) t r es) (h : file.drop off = w ++ (t ++ r)) : ¬ NumberAt file off n := by
  rintro ⟨v, ds, z, e, hv, hne, hd, hz, -⟩
  obtain ⟨y, -, k⟩ := lInt_digits hv ds hd hne z hz
  rw [← e, h, lInt_blank hw] at k
  generalize ho : Obj.dict D = o at ht
  cases ht with
  | @dict es t r e _ =>
    rw [List.cons_append, lInt_nondigit (by decide) (by decide) (by decide)] at k
    cases k
  | _ => cases ho

/-- Loading one section, whatever comes before it. -/
theorem section_step {cfg : Cfg} {fo : Nat} (rs : Env → Resolver) {p : Nat} {u : Update} (h : SectIn cfg.ext.toCodecs cfg.file p u) (f : Nat) (seen : List Int) (s : LS) (hsh : s.sh = newSecurityHandler)
    (hnew : (p : Int) ∉ seen) {q : Option Int} (hq : PrevIs (dictOf u.sect.trailer) q) :
    ∃ s1 : LS, s1.trailer = s.trailer ∧ s1.sh = s.sh ∧ (∀ n, lastFor u.sect.entries n = none → s1.xref.get? n = s.xref.get? n) ∧
      ∀ seen' s2, LoadsPrev cfg (fun env => getObject env fo) rs f q (p :: seen) s1 seen' s2 →
        ∃ s', loadXref cfg (fun env => getObject env fo) rs (f + 1) p seen s = .ok (seen', s') ∧ (∀ n, Says cfg.file n (lastFor u.sect.entries n) (s2.xref.get? n) (s'.xref.get? n)) ∧
          (∀ k, s'.trailer.get? k = (lastFor u.sect.trailer k).or (s2.trailer.get? k)) ∧ s'.sh = s2.sh := by
  cases h with
  | @table subs trailer notes front dict gap r he hT hbuf hd hr =>
    rw [he] at hq ⊢
    obtain ⟨s1, h1, h2, h3, -, h4⟩ := loadXref_table cfg (fun env => getObject env fo) rs (seen := seen) s hT (hd r) hr hbuf hnew f hq
    refine ⟨s1, h2, h3, fun n _ => by rw [h1], fun seen' s2 hrun => ⟨_, (h4 _ _).2 ⟨s2, hrun, rfl⟩, fun n => .refl ?_, fun k => ?_, rfl⟩⟩
    · dsimp only [Sect.entries]
      rw [Assoc.get?_merge_uniq _ (setAll_nodup _), get?_setAll]
      simp [Assoc.get?]
    · dsimp only [Sect.trailer]
      rw [Assoc.get?_merge_uniq _ (Props.dictOf_nodup _), dictOf_get]
  | @stream subs w0 w1 w2 x D more extra r he ho hr hn0 hval hstr hidx hW hw0 hw1 hw2 hfit =>
    obtain ⟨a, ha, hrel⟩ := ho
    have ho : ObjectText cfg.ext.toCodecs x.obj x.notes x.text := ⟨a, ha, hrel⟩
    obtain ⟨ds, gs, hd, w, t, z, k1, k2, k3, k4, k5, ⟨k6, k7⟩, k8, k9⟩ := ha.body
    have hsame := Decoded.same hrel
    rw [hsame.1] at k6
    rw [hsame.2.1] at k8
    rw [hsame.2.2] at k5
    have hin : cfg.file.drop p = hd ++ (w ++ (t ++ (z ++ r))) := by rw [hr, k2]; simp
    have k5' := k5 r
    rw [hval] at k5'
    have hdn := objAt_dict_nodup k5'
    have hget : ∀ k, (dictOf D).get? k = Assoc.get? D k := fun k => by rw [dictOf_get, lastFor_nodup hdn]
    rw [he] at hq ⊢
    have htr : (Sect.stream subs w0 w1 w2 p x).trailer = D := by rw [Sect.trailer, hval]; rfl
    have hq : PrevIs D q := by
      rw [htr] at hq
      cases hq with
      | absent h => exact .absent (by rw [← hget]; exact h)
      | other h h' h'' => exact .other (by rw [← hget]; exact h) h' h''
      | num h => exact .num (by rw [← hget]; exact h)
    obtain ⟨s1, h1, h2, h3, h4, h5⟩ := C24_stream cfg (fun env => getObject env fo) rs (seen := seen) s k1 (k4 r) hin k7 k9 (d := D) (data := dataOf w0 w1 w2 subs ++ extra) (m := x.obj.number) (g' := x.obj.generation)
      (by
        intro ps
        obtain ⟨ps', j1, -⟩ := getObject_entry (env := ⟨cfg.file, s.xref.set (Spec.decVal ds) ⟨p, Spec.decVal gs, 1, false, false⟩, s.sh, cfg.ext, cfg.verbose⟩) hsh ho (R := r)
          (e := ⟨p, Spec.decVal gs, 1, false, false⟩) ⟨by rw [k6]; show Assoc.get? (Assoc.set _ _ _) _ = _; rw [Assoc.get?_set, if_pos rfl], rfl, Int.natCast_nonneg _, hr⟩ fo ps
        refine ⟨ps', ?_⟩
        rw [k6] at j1
        refine j1.trans ?_
        rw [withGeneration, hval, hstr, k8, k6])
      hdn hidx hW hw0 hw1 hw2 hfit rfl hnew f hq
    refine ⟨s1, h2, h3, fun n hn => ?_, fun seen' s2 hrun => ?_⟩
    · rw [h1, Assoc.get?_set, if_neg ?_]
      intro e
      rw [Sect.entries, lastFor_append] at hn
      simp [lastFor, k6, e] at hn
    · obtain ⟨s', j1⟩ := h4 seen' s2 hrun
      obtain ⟨s2', j2, j3, j4, j5⟩ := h5 seen' s' j1
      have : s2' = s2 := by
        cases hrun with
        | none => cases j2; rfl
        | some a => cases j2 with | some b => rw [a] at b; cases b; rfl
      subst this
      refine ⟨s', j1, fun n => ?_, fun k => ?_, j5⟩
      · rw [j3, Sect.entries, lastFor_append]
        by_cases hn : n = x.obj.number
        · subst hn
          rw [if_pos rfl]
          have : lastFor [(x.obj.number, (⟨p, x.obj.generation, 1, false, false⟩ : XrefEntry))] x.obj.number = some ⟨p, x.obj.generation, 1, false, false⟩ := by simp [lastFor]
          rw [this]
          refine ⟨_, rfl, .moved (off := p + hd.length) rfl rfl rfl (by simp) (.number hn0 (no_number k3 k5' ?_))⟩
          rw [← List.drop_drop, hin, List.drop_left]
        · rw [if_neg hn]
          have : lastFor [(x.obj.number, (⟨p, x.obj.generation, 1, false, false⟩ : XrefEntry))] n = none := by simp [lastFor, Ne.symm hn]
          rw [this, Option.none_or]
          exact .refl rfl
      · rw [j4, htr, lastFor_nodup hdn]

theorem chain_load {cfg : Cfg} {fo : Nat} (rs : Env → Resolver) {k : Nat} {c : List (Nat × Update)} (h : Chain cfg.ext.toCodecs cfg.file k c) : ∀ {p : Nat} {u : Update} {c' : List (Nat × Update)},
    c = (p, u) :: c' → ∀ (f : Nat) (seen : List Int) (s : LS), s.sh = newSecurityHandler → k ≤ f → (∀ x ∈ seen, ∀ y ∈ c, (y.1 : Int) ≠ x) →
    ∃ seen' s', loadXref cfg (fun env => getObject env fo) rs f p seen s = .ok (seen', s') ∧ Adds cfg.file s s' c := by
  induction h with
  | @one p u ht hp =>
    intro p' u' c' e f seen s hsh hf hs
    cases e
    obtain ⟨f, rfl⟩ : ∃ g, f = g + 1 := ⟨f - 1, by omega⟩
    obtain ⟨s1, h1, h2, h3, h4⟩ := section_step (fo := fo) rs ht f seen s hsh (fun h => hs _ h (p, u) (by simp) rfl) (.absent hp)
    obtain ⟨s', k1, k2, k3, k4⟩ := h4 _ _ .none
    refine ⟨_, s', k1, ?_, ?_, k4.trans h2⟩
    · intro n
      have := k2 n
      have e : chainEntries [(p, u)] = u.sect.entries := by simp [chainEntries]
      rw [e]
      cases hl : lastFor u.sect.entries n with
      | none => rw [hl, h3 n hl] at this; exact this
      | some x => rw [hl] at this; exact this
    · intro k
      rw [k3, h1]; simp [chainTrailer]
  | @lost p u x ht hp hx =>
    intro p' u' c' e f seen s hsh hf hs
    cases e
    obtain ⟨f, rfl⟩ : ∃ g, f = g + 1 := ⟨f - 1, by omega⟩
    obtain ⟨s1, h1, h2, h3, h4⟩ := section_step (fo := fo) rs ht f seen s hsh (fun h => hs _ h (p, u) (by simp) rfl) (.num hp)
    obtain ⟨f, rfl⟩ : ∃ g, f = g + 1 := ⟨f - 1, by omega⟩
    obtain ⟨seen', ps, e1⟩ := hx.load (fun env => getObject env fo) rs f ((p : Int) :: seen) s1
    obtain ⟨s', k1, k2, k3, k4⟩ := h4 _ _ (.some e1)
    refine ⟨_, s', k1, ?_, ?_, k4.trans h2⟩
    · intro n
      have := k2 n
      have e : chainEntries [(p, u)] = u.sect.entries := by simp [chainEntries]
      rw [e]
      cases hl : lastFor u.sect.entries n with
      | none => rw [hl] at this; exact Eq.trans (b := s1.xref.get? n) this (h3 n hl)
      | some x => rw [hl] at this; exact this
    · intro k
      rw [k3]; show (lastFor _ k).or (s1.trailer.get? k) = _; rw [h1]; simp [chainTrailer]
  | @cons m p u q v c x ht hp hx hlt hc ih =>
    intro p' u' c' e f seen s hsh hf hs
    cases e
    obtain ⟨f, rfl⟩ : ∃ g, f = g + 1 := ⟨f - 1, by omega⟩
    obtain ⟨s1, h1, h2, h3, h4⟩ := section_step (fo := fo) rs ht f seen s hsh (fun h => hs _ h (p, u) (by simp) rfl) (.num hp)
    obtain ⟨seen2, s2, k1, k2⟩ := ih rfl f ((p : Int) :: seen) s1 (h2.trans hsh) (by omega) (by
      intro y hy
      rcases List.mem_cons.1 hy with rfl | hy
      · intro z hz e
        exact hlt z hz (by omega)
      · intro z hz
        exact hs y hy z (List.mem_cons_of_mem _ hz))
    rw [hx] at h4
    obtain ⟨s', j1, j2, j3, j4⟩ := h4 _ _ (.some k1)
    refine ⟨_, s', j1, ?_, ?_, j4.trans (k2.sh.trans h2)⟩
    · intro n
      have e : chainEntries ((p, u) :: (q, v) :: c) = chainEntries ((q, v) :: c) ++ u.sect.entries := by simp [chainEntries]
      rw [e, lastFor_append]
      have := (k2.xref n).trans (j2 n)
      cases hl : lastFor u.sect.entries n with
      | none => rw [hl, h3 n hl] at this; exact this
      | some x => rw [hl] at this; exact this
    · intro k
      have e : chainTrailer ((p, u) :: (q, v) :: c) = chainTrailer ((q, v) :: c) ++ u.sect.trailer := by simp [chainTrailer]
      rw [j3, k2.trailer, h1, e, lastFor_append]
      simp [Option.or_assoc]

/-! ### The sections of a document -/

theorem drop_app {A B : Bytes} {n : Nat} (h : A.length = n) : (A ++ B).drop n = B := List.drop_left' h

theorem Spec.UpdateAt.sectIn {rd : Reading} {stray : Option Int → Prop} {pos : Nat} {prev : Option Nat} {u : Update} {r A R : Bytes} (h : UpdateAt rd stray pos prev u r) (hA : A.length = pos) :
    SectIn rd.cd (A ++ (u.text ++ R)) (u.place pos) u := by
  cases h.sect with
  | @table subs trailer notes front dict gap he _ hT _ hbuf hd =>
    refine .table he hT hbuf hd (r := gap ++ (u.back ++ R)) ?_
    have e : A ++ (u.text ++ R) = (A ++ joined u.parts) ++ (front ++ (60 :: 60 :: (dict ++ (gap ++ (u.back ++ R))))) := by
      simp [Update.text, Update.tail, he, Sect.text]
    rw [e]
    exact drop_app (by rw [List.length_append, hA, Update.place, he])
  | @stream subs w0 w1 w2 x ps D more extra he hps _ hn hval hstr hidx hW _ hw0 hw1 hw2 hfit htext =>
    have hpl : u.place pos = pos + (joined ps).length := by rw [Update.place, he, hps, List.dropLast_concat]
    refine .stream (r := u.tail ++ R) (by rw [he, hpl]) htext ?_ hn hval hstr hidx hW hw0 hw1 hw2 hfit
    have e : A ++ (u.text ++ R) = (A ++ joined ps) ++ (x.text ++ (u.tail ++ R)) := by
      simp [Update.text, hps, joined_append, joined_cons, joined]
    rw [e]
    exact drop_app (by rw [List.length_append, hA, hpl])

theorem Spec.UpdateAt.place_le {rd : Reading} {stray : Option Int → Prop} {pos : Nat} {prev : Option Nat} {u : Update} {r : Bytes} (h : UpdateAt rd stray pos prev u r) : pos ≤ u.place pos ∧ u.place pos < pos + u.text.length := by
  have ht : 0 < u.tail.length := by
    obtain ⟨b, t, e, -⟩ := h.tail_first
    rw [e]; simp
  rw [Update.text, List.length_append]
  cases h.sect with
  | table he _ _ _ _ _ => rw [Update.place, he]; dsimp only; omega
  | @stream subs w0 w1 w2 x ps D more extra he hps _ _ _ _ _ _ _ _ _ _ _ _ =>
    have hpl : u.place pos = pos + (joined ps).length := by rw [Update.place, he, hps, List.dropLast_concat]
    rw [hpl, hps, joined_append, List.length_append]; omega

/-- The word `xref` of `startxref` and what follows it. -/
theorem Spec.UpdateAt.wordIn {rd : Reading} {stray : Option Int → Prop} {pos : Nat} {prev : Option Nat} {u : Update} {r A R : Bytes} (h : UpdateAt rd stray pos prev u r) (hA : A.length = pos) :
    ∃ w w' ds, (∀ b ∈ w ++ w', IsWhite b) ∧ w ≠ [] ∧ (∀ d ∈ ds, d < 10) ∧ ds ≠ [] ∧ (∀ b ∈ r, IsWhite b) ∧ u.word pos ≤ (A ++ (u.text ++ R)).length ∧
      (A ++ (u.text ++ R)).drop (u.word pos) = b!"xref" ++ (w ++ (ds.map decDigit ++ (w' ++ (b!"%%EOF" ++ (r ++ R))))) := by
  obtain ⟨n, hb, -⟩ := h.back
  generalize hq : u.back = q at hb
  cases hb with
  | @mk w w' r ds h1 h2 h3 h4 h5 =>
    refine ⟨w, w', ds, ?_, h1, h4, h3, h5, ?_⟩
    · intro b hb
      rcases h2 b hb with rfl | rfl | rfl | rfl | rfl <;> decide
    · have e : A ++ (u.text ++ R) = (A ++ (joined u.parts ++ (u.sect.text ++ b!"start"))) ++ (b!"xref" ++ (w ++ (ds.map decDigit ++ (w' ++ (b!"%%EOF" ++ (r ++ R)))))) := by
        simp [Update.text, Update.tail, hq]
      have hl : (A ++ (joined u.parts ++ (u.sect.text ++ b!"start"))).length = u.word pos := by
        rw [Update.word, List.length_append, hA]
      rw [e]
      exact ⟨by rw [List.length_append, hl]; omega, drop_app hl⟩

theorem Spec.BackText.endsIn {u : Update} {r A : Bytes} {n : Nat} (hb : BackText n r u.back) (hs : u.back.length ≤ 256) : EndsInStart (A ++ u.text) n := by
  generalize hq : u.back = q at hb hs
  cases hb with
  | @mk w w' r ds h1 h2 h3 h4 h5 =>
    have e : A ++ u.text = (A ++ (joined u.parts ++ u.sect.text)) ++ (b!"startxref" ++ (w ++ (ds.map decDigit ++ (w' ++ (b!"%%EOF" ++ r))))) := by
      simp [Update.text, Update.tail, hq]
    refine ⟨_, w, w', r, ds, e, h2, h3, h4, rfl, ?_, ?_⟩
    · rw [e, List.length_append]
      omega
    · intro x y e
      have := h5 115 (by rw [e]; simp)
      revert this; decide

theorem Spec.UpdateAt.endsIn {rd : Reading} {stray : Option Int → Prop} {pos : Nat} {prev : Option Nat} {u : Update} {r A : Bytes} (h : UpdateAt rd stray pos prev u r) (hs : u.back.length ≤ 256) :
    ∃ m, EndsInStart (A ++ u.text) m ∧ (m = u.place pos ∨ stray (some m)) := by
  obtain ⟨n, hb, hn⟩ := h.back
  exact ⟨n, hb.endsIn hs, hn⟩

theorem placedParts_mem : ∀ {ps : List Part} {pos : Nat} {q : Nat × Part}, q ∈ placedParts pos ps → q.2 ∈ ps
  | [], _, _, h => by cases h
  | p :: ps, pos, q, h => by
    rw [placedParts] at h
    rcases List.mem_cons.1 h with rfl | h
    · simp
    · exact List.mem_cons_of_mem _ (placedParts_mem h)

/-- Cross reference streams are where the updates have them. -/
theorem stream_place {rd : Reading} {stray : Option Int → Prop} : ∀ {us : List Update} {pos : Nat} {prev : Option Nat}, Updates rd stray pos prev us → ∀ q ∈ placed pos us, ¬ NotXref q.2.obj → q.1 ∈ xrefWords pos us := by
  intro us
  induction us with
  | nil => intro pos prev h; cases h
  | cons u us ih =>
    intro pos prev h q hq hx
    have hu : ∃ r, UpdateAt rd stray pos prev u r := by
      cases h with
      | last h _ => exact ⟨_, h⟩
      | cons h _ _ => exact ⟨_, h⟩
    obtain ⟨r, hu⟩ := hu
    rw [placed] at hq
    rw [xrefWords]
    rcases List.mem_append.1 hq with hq | hq
    · cases hu.sect with
      | table _ hn _ _ _ _ => exact absurd (hn _ (placedParts_mem hq)) hx
      | @stream subs w0 w1 w2 x ps D more extra he hps hn _ _ _ _ _ _ _ _ _ _ _ =>
        rw [hps, placedParts_append] at hq
        rcases List.mem_append.1 hq with hq | hq
        · exact absurd (hn _ (placedParts_mem hq)) hx
        · have hpl : u.place pos = pos + (joined ps).length := by rw [Update.place, he, hps, List.dropLast_concat]
          rw [placedParts, placedParts, List.mem_singleton] at hq
          rw [hq, hpl]; simp
    · cases h with
      | last _ _ => cases hq
      | cons _ _ h => exact List.mem_cons_of_mem _ (List.mem_cons_of_mem _ (ih h q hq hx))

/-- The dictionary of the first object of one of the updates, as it is in the file. -/
def FirstRaw (rd : Reading) (us : List Update) (d : Dict) : Prop := ∃ v ∈ us, ∃ p a, v.parts.head? = some p ∧ rd.rel a p.obj ∧ a.value = .dict d

theorem FirstRaw.plain {cd : Codecs} {us : List Update} {d : Dict} (h : FirstRaw cd us d) : FirstDict us d := by
  obtain ⟨v, hv, p, a, h1, h2, h3⟩ := h
  refine ⟨v, hv, p, h1, ?_⟩
  rw [← h3, (Decoded.same h2).2.2]

/-- The word `xref` in `startxref`. -/
def WordAt (rd : Reading) (file : Bytes) (later : List Update) (o : Nat) : Prop :=
  ∀ ps, ∃ d : Dict, WordReads file o ps d ∧ (d.map (·.1)).Nodup ∧ d.get? b!"Prev" = none ∧ (d = [] ∨ FirstRaw rd later d)

/-- A section and those it leads to, among the updates `past`, the newest first. -/
structure Leads (cd : Codecs) (file : Bytes) (stray : Option Int → Prop) (past : List Update) (p : Nat) (u : Update) (k : Nat) (c : List (Nat × Update)) (older : List Update) : Prop where
  chain : Chain cd file k ((p, u) :: c)
  cost : k ≤ past.length
  past : past = ((p, u) :: c).map (·.2) ++ older
  all : (∀ m, ¬ stray m) → older = []

/-- The sections of updates that start at `pos`, after the updates `past`. -/
inductive Sections (rd : Reading) (file : Bytes) (stray : Option Int → Prop) : Nat → List Update → List Update → Prop
  | nil {pos past} : Sections rd file stray pos past []
  | cons {pos past u us k c older} : Leads rd.cd file stray (u :: past) (u.place pos) u k c older → WordAt rd file us (u.word pos) →
      pos ≤ u.place pos → u.place pos < u.word pos → u.word pos < pos + u.text.length →
      Sections rd file stray (pos + u.text.length) (u :: past) us → Sections rd file stray pos past (u :: us)

/-- The sections before an update. -/
inductive Before (cd : Codecs) (file : Bytes) (stray : Option Int → Prop) (pos : Nat) : Option Nat → List Update → Prop
  | start : Before cd file stray pos none []
  | after {past q v k c older} : Leads cd file stray past q v k c older → (∀ y ∈ (q, v) :: c, y.1 < pos) → Before cd file stray pos (some q) past

theorem Before.next {rd : Reading} {file : Bytes} {stray : Option Int → Prop} {pos : Nat} {prev : Option Nat} {past : List Update} {u : Update} {r : Bytes} (hb : Before rd.cd file stray pos prev past)
    (h : UpdateAt rd stray pos prev u r) (ht : SectIn rd.cd file (u.place pos) u) (hl : ∀ x, stray (some x) → Lost file x) :
    ∃ k c older, Leads rd.cd file stray (u :: past) (u.place pos) u k c older ∧ ∀ y ∈ (u.place pos, u) :: c, y.1 < pos + u.text.length := by
  have hpl := h.place_le
  cases hb with
  | start => exact ⟨1, [], [], ⟨.one ht (h.noPrev rfl), by simp, rfl, fun _ => rfl⟩, by simpa using hpl.2⟩
  | @after _ q v k c older hc hlt =>
    have hlen : 2 ≤ (u :: past).length := by
      have := congrArg List.length hc.past
      simp only [List.length_cons, List.map_cons, List.length_append] at this ⊢
      omega
    rcases h.hasPrev _ rfl with ⟨x, h1, h2 | h2⟩ | ⟨h1, h2⟩
    · refine ⟨k + 1, (q, v) :: c, older, ⟨.cons ht h1 h2 (fun y hy => by have := hlt y hy; omega) hc.chain, ?_, ?_, hc.all⟩, ?_⟩
      · have := hc.cost
        rw [List.length_cons]; omega
      · rw [hc.past]; rfl
      · intro y hy
        rcases List.mem_cons.1 hy with rfl | hy
        · exact hpl.2
        · have := hlt y hy; omega
    · exact ⟨2, [], past, ⟨.lost ht h1 (hl _ h2), hlen, rfl, fun h => absurd h2 (h _)⟩, by simpa using hpl.2⟩
    · exact ⟨1, [], past, ⟨.one ht h1, by omega, rfl, fun h => absurd h2 (h _)⟩, by simpa using hpl.2⟩

theorem Spec.UpdateAt.word_le {rd : Reading} {stray : Option Int → Prop} {pos : Nat} {prev : Option Nat} {u : Update} {r : Bytes} (h : UpdateAt rd stray pos prev u r) :
    u.place pos < u.word pos ∧ u.word pos < pos + u.text.length := by
  constructor
  · rw [Update.word]
    simp only [List.length_append, List.length_cons, List.length_nil]
    cases h.sect with
    | table he _ _ _ _ _ => rw [Update.place, he]; dsimp only; omega
    | @stream subs w0 w1 w2 x ps D more extra he hps _ _ _ _ _ _ _ _ _ _ _ _ =>
      have hpl : u.place pos = pos + (joined ps).length := by rw [Update.place, he, hps, List.dropLast_concat]
      rw [hpl, hps, joined_append, List.length_append]; omega
  · obtain ⟨n, hb, -⟩ := h.back
    rw [Update.word, Update.text, Update.tail]
    generalize u.back = q at hb
    cases hb with
    | mk _ _ _ _ _ => simp only [List.length_append, List.length_cons, List.length_nil]; omega

theorem wordAt_last {rd : Reading} {stray : Option Int → Prop} {file : Bytes} {pos : Nat} {prev : Option Nat} {u : Update} {r A : Bytes} (h1 : UpdateAt rd stray pos prev u r) (hA : A.length = pos)
    (e : file = A ++ (u.text ++ [])) (later : List Update) : WordAt rd file later (u.word pos) := by
  intro ps
  refine ⟨[], ?_, by simp, rfl, .inl rfl⟩
  obtain ⟨w, w', ds, k1, k2, k3, k4, k5, k6, k7⟩ := h1.wordIn (R := []) hA
  rw [← e] at k6 k7
  exact word_last ps k1 k2 k3 k4 k5 (by rw [k7, List.append_nil]) k6

theorem wordAt_next {rd : Reading} {stray stray' : Option Int → Prop} {file : Bytes} {pos pos' : Nat} {prev prev' : Option Nat} {u v1 : Update} {r r' A : Bytes} {rest' : List Update}
    (h1 : UpdateAt rd stray pos prev u r) (hA : A.length = pos) (h2 : 10 ∈ r ∨ 13 ∈ r) (hv : UpdateAt rd stray' pos' prev' v1 r')
    (hf : ∀ p, v1.parts.head? = some p → ∀ d : Dict, p.obj.value = .dict d → d.get? b!"Prev" = none)
    (e : file = A ++ (u.text ++ (v1 :: rest').flatMap (·.text))) : WordAt rd file (v1 :: rest') (u.word pos) := by
  intro ps
  obtain ⟨w, w', ds, k1, k2, k3, k4, k5, k6, k7⟩ := h1.wordIn (R := (v1 :: rest').flatMap (·.text)) hA
  rw [← e] at k6 k7
  by_cases hp0 : v1.parts = []
  · cases hv.sect with
    | @table subs trailer notes front dict gap he _ htab hx _ _ =>
      obtain ⟨t, hx⟩ := hx
      refine ⟨[], word_table ps k1 k2 k3 k4 k5 h2 (R := 60 :: 60 :: (dict ++ gap) ++ (v1.back ++ rest'.flatMap (·.text))) htab hx ?_ k6, by simp, rfl, .inl rfl⟩
      rw [k7]
      simp [Update.text, Update.tail, hp0, he, Sect.text, joined]
    | stream _ hps _ _ _ _ _ _ _ _ _ _ _ _ => rw [hp0] at hps; exact absurd hps (by simp)
  obtain ⟨p0, pr, hp⟩ := List.exists_cons_of_ne_nil hp0
  obtain ⟨a, ha, hrel⟩ := hv.parts p0 (by rw [hp]; simp)
  obtain ⟨d, d1, hnd, d2⟩ := word_next ps k1 k2 k3 k4 k5 h2 (R := joined pr ++ (v1.tail ++ rest'.flatMap (·.text))) ha
    (by rw [k7]; simp [Update.text, hp, joined_cons]) k6
  refine ⟨d, d1, hnd, ?_, ?_⟩
  · rcases d2 with rfl | d2
    · rfl
    · obtain ⟨d', e1, e2⟩ := Reading.dict hrel d2
      exact (e2 _).1.2 (hf p0 (by rw [hp]; rfl) d' e1)
  · rcases d2 with d2 | d2
    · exact .inl d2
    · exact .inr ⟨v1, by simp, p0, a, by rw [hp]; rfl, hrel, d2⟩

theorem sections {rd : Reading} {file : Bytes} {stray : Option Int → Prop} (hl : ∀ x, stray (some x) → Lost file x) : ∀ {us : List Update} {pos : Nat} {prev : Option Nat}, Updates rd stray pos prev us →
    ∀ {A : Bytes} {past : List Update}, A.length = pos → file = A ++ us.flatMap (·.text) → Before rd.cd file stray pos prev past →
    Sections rd file stray pos past us ∧
    ∃ q v k c older m, Leads rd.cd file stray (us.reverse ++ past) q v k c older ∧ EndsInStart file m ∧ (m = q ∨ stray (some m)) := by
  intro us
  induction us with
  | nil => intro pos prev h; cases h
  | cons u us ih =>
    intro pos prev h A past hA hfile hb
    cases h with
    | @last _ _ _ r h1 h2 =>
      have e : file = A ++ (u.text ++ []) := by rw [hfile]; simp
      have ht := h1.sectIn (R := []) hA
      rw [← e] at ht
      obtain ⟨k, c, older, hc⟩ := hb.next h1 ht hl
      obtain ⟨m, hm, hm'⟩ := h1.endsIn (A := A) h2
      have e' : A ++ u.text = file := by rw [e]; simp
      rw [e'] at hm
      exact ⟨.cons hc.1 (wordAt_last h1 hA e _) h1.place_le.1 h1.word_le.1 h1.word_le.2 .nil, _, _, k, c, older, m, hc.1, hm, hm'⟩
    | @cons _ _ _ r _ h1 h2 h3 =>
      have e : file = A ++ (u.text ++ us.flatMap (·.text)) := by rw [hfile]; simp
      have e' : file = (A ++ u.text) ++ us.flatMap (·.text) := by rw [hfile]; simp
      have ht := h1.sectIn (R := us.flatMap (·.text)) hA
      rw [← e] at ht
      obtain ⟨k, c, older, hc⟩ := hb.next h1 ht hl
      obtain ⟨i1, q, v, k', c', older', m, i2, i3⟩ := ih h3 (A := A ++ u.text) (past := u :: past) (by rw [List.length_append, hA]) e' (.after hc.1 hc.2)
      have hv : ∃ v rest, us = v :: rest ∧ ∃ r', UpdateAt rd stray (pos + u.text.length) (some (u.place pos)) v r' := by
        cases h3 with
        | last h _ => exact ⟨_, _, rfl, _, h⟩
        | cons h _ _ => exact ⟨_, _, rfl, _, h⟩
      obtain ⟨v1, rest', rfl, r', hv⟩ := hv
      exact ⟨.cons hc.1 (wordAt_next h1 hA h2 hv (hv.first (by simp)) e) h1.place_le.1 h1.word_le.1 h1.word_le.2 i1, q, v, k', c', older', m, by rw [List.reverse_cons, List.append_assoc]; exact i2, i3⟩

/-- What an offset in the list of sections is: a section with those before it, or the word in `startxref`. -/
inductive Section (rd : Reading) (file : Bytes) (all : List Update) (o : Nat) : Prop
  | table {k : Nat} {u : Update} {c : List (Nat × Update)} : Chain rd.cd file k ((o, u) :: c) → (∀ x ∈ (o, u) :: c, x.2 ∈ all) → k ≤ all.length → Section rd file all o
  | word : WordAt rd file all.tail o → Section rd file all o

theorem Leads.mem {cd : Codecs} {file : Bytes} {stray : Option Int → Prop} {past : List Update} {p : Nat} {u : Update} {k : Nat} {c : List (Nat × Update)} {older : List Update}
    (h : Leads cd file stray past p u k c older) : ∀ x ∈ (p, u) :: c, x.2 ∈ past := by
  intro x hx
  rw [h.past]
  exact List.mem_append_left _ (List.mem_map_of_mem hx)

theorem WordAt.mono {rd : Reading} {file : Bytes} {later later' : List Update} {o : Nat} (h : WordAt rd file later o) (hl : ∀ v ∈ later, v ∈ later') : WordAt rd file later' o := by
  intro ps
  obtain ⟨d, h1, hnd, h2, h3⟩ := h ps
  refine ⟨d, h1, hnd, h2, ?_⟩
  rcases h3 with h3 | ⟨v, hv, h4⟩
  · exact .inl h3
  · exact .inr ⟨v, hl v hv, h4⟩

theorem mem_tail_append {α : Type} {a b : List α} {u v : α} (h : v ∈ b) : v ∈ (a ++ u :: b).tail := by
  cases a with
  | nil => exact h
  | cons x a => simp [h]

theorem Sections.section {rd : Reading} {file : Bytes} {stray : Option Int → Prop} {pos : Nat} {past us all : List Update} (h : Sections rd file stray pos past us) :
    (∀ v ∈ past, v ∈ all) → (∀ v ∈ us, v ∈ all) → (∀ v ∈ us.tail, v ∈ all.tail) → past.length + us.length ≤ all.length → ∀ o ∈ xrefWords pos us, Section rd file all o := by
  induction h with
  | nil => intro _ _ _ _ o ho; cases ho
  | @cons pos past u us k c older hc hw _ _ _ _ ih =>
    intro h1 h2 h3 h4 o ho
    have hp : ∀ v ∈ u :: past, v ∈ all := by
      intro v hv
      rcases List.mem_cons.1 hv with rfl | hv
      · exact h2 _ (by simp)
      · exact h1 v hv
    rw [List.length_cons] at h4
    rcases List.mem_cons.1 ho with rfl | ho
    · refine .table hc.chain (fun x hx => hp _ (hc.mem x hx)) ?_
      have := hc.cost
      rw [List.length_cons] at this
      omega
    · rcases List.mem_cons.1 ho with rfl | ho
      · exact .word (hw.mono h3)
      · exact ih hp (fun v hv => h2 v (by simp [hv])) (fun v hv => h3 v (List.mem_of_mem_tail hv)) (by rw [List.length_cons]; omega) o ho

/-! ### Loading them -/

/-- What the sections of updates, the oldest first, say about a number. -/
def listFor (us : List Update) (n : Int) : Option XrefEntry := lastFor (us.flatMap fun u => u.sect.entries) n

/-- What the trailers of updates, the oldest first, say about a key. -/
def trailFor (us : List Update) (k : Bytes) : Option Obj := lastFor (us.flatMap (·.sect.trailer)) k

theorem revisions_plain {us : List Update} (h : linear us = false) : revisions us = us.map Update.revision := by
  rw [revisions]
  intro u v us' e
  rw [h] at e; cases e

theorem entryFor_plain {us : List Update} (h : linear us = false) (n : Int) : entryFor us n = listFor us n := by
  rw [entryFor, revisions_plain h, List.flatMap_map]; rfl

theorem trailerFor_plain {us : List Update} (h : linear us = false) (k : Bytes) : trailerFor us k = trailFor us k := by
  rw [trailerFor, revisions_plain h, List.flatMap_map]; rfl

theorem revisions_linear {u v : Update} {us : List Update} (h : linear (u :: v :: us) = true) : revisions (u :: v :: us) = firstTwo u v :: us.map Update.revision := by
  rw [revisions]
  exact h

theorem entryFor_linear {u v : Update} {us : List Update} (h : linear (u :: v :: us) = true) (n : Int) : entryFor (u :: v :: us) n = listFor (v :: u :: us) n := by
  rw [entryFor, revisions_linear h, List.flatMap_cons, List.flatMap_map, listFor, List.flatMap_cons, List.flatMap_cons, ← List.append_assoc]; rfl

theorem trailerFor_linear {u v : Update} {us : List Update} (h : linear (u :: v :: us) = true) (k : Bytes) : trailerFor (u :: v :: us) k = trailFor (v :: u :: us) k := by
  rw [trailerFor, revisions_linear h, List.flatMap_cons, List.flatMap_map, trailFor, List.flatMap_cons, List.flatMap_cons, ← List.append_assoc]; rfl

theorem listFor_perm {us us' : List Update} (h : us.Perm us') {n : Int} (hn : listFor us n = none) : listFor us' n = none := by
  rw [listFor, lastFor_none] at hn ⊢
  exact fun h' => hn (((h.symm.flatMap_right _).map _).subset h')

theorem trailFor_perm {us us' : List Update} (h : us.Perm us') {k : Bytes} (hn : trailFor us k = none) : trailFor us' k = none := by
  rw [trailFor, lastFor_none] at hn ⊢
  exact fun h' => hn (((h.symm.flatMap_right _).map _).subset h')

theorem Spec.Updates.plain {rd : Reading} {stray : Option Int → Prop} {pos : Nat} {us : List Update} (h : Updates rd stray pos none us) : linear us = false := by
  cases h with
  | last => rfl
  | @cons _ _ u r us h1 h2 h3 =>
    cases us with
    | nil => rfl
    | cons v us => rw [linear, h1.noPrev rfl]; rfl

/-- What is true while the sections are loaded. -/
structure Loading (rd : Reading) (us : List Update) (s : LS) : Prop where
  xref : ∀ n e, s.xref.get? n = some e → listFor us n ≠ none
  trailer : ∀ k v, s.trailer.get? k = some v → trailFor us k ≠ none ∨ ∃ d, FirstRaw rd us.tail d ∧ d.get? k = some v
  sh : s.sh = newSecurityHandler

theorem entries_mem {us : List Update} {c : List (Nat × Update)} (h : ∀ x ∈ c, x.2 ∈ us) {n : Int} (hn : lastFor (chainEntries c) n ≠ none) : listFor us n ≠ none := by
  intro h0
  rw [listFor, lastFor_none] at h0
  apply hn
  rw [lastFor_none]
  intro h1
  apply h0
  obtain ⟨y, hy, rfl⟩ := List.mem_map.1 h1
  obtain ⟨x, hx, hy⟩ := List.mem_flatMap.1 hy
  exact List.mem_map_of_mem (List.mem_flatMap.2 ⟨x.2, h x (List.mem_reverse.1 hx), hy⟩)

theorem trailer_mem {us : List Update} {c : List (Nat × Update)} (h : ∀ x ∈ c, x.2 ∈ us) {k : Bytes} (hk : lastFor (chainTrailer c) k ≠ none) : trailFor us k ≠ none := by
  intro h0
  rw [trailFor, lastFor_none] at h0
  apply hk
  rw [lastFor_none]
  intro h1
  apply h0
  obtain ⟨y, hy, rfl⟩ := List.mem_map.1 h1
  obtain ⟨x, hx, hy⟩ := List.mem_flatMap.1 hy
  exact List.mem_map_of_mem (List.mem_flatMap.2 ⟨x.2, h x (List.mem_reverse.1 hx), hy⟩)

theorem Adds.loading {rd : Reading} {file : Bytes} {us : List Update} {c : List (Nat × Update)} {s s' : LS} (h : Adds file s s' c) (hc : ∀ x ∈ c, x.2 ∈ us) (hs : Loading rd us s) : Loading rd us s' := by
  refine ⟨fun n e he => ?_, fun k v hv => ?_, h.sh.trans hs.sh⟩
  · have hx := h.xref n
    cases hl : lastFor (chainEntries c) n with
    | some y => exact entries_mem hc (by rw [hl]; simp)
    | none =>
      rw [hl] at hx
      have hx : s'.xref.get? n = s.xref.get? n := hx
      rw [hx] at he; exact hs.xref n e he
  · rw [h.trailer] at hv
    cases hl : lastFor (chainTrailer c) k with
    | some y => exact .inl (trailer_mem hc (by rw [hl]; simp))
    | none => rw [hl] at hv; exact hs.trailer k v hv

theorem section_load {rd : Reading} {cfg : Cfg} (hcd : rd.cd = cfg.ext.toCodecs) {fo : Nat} (rs : Env → Resolver) {us : List Update} {o : Nat} (h : Section rd cfg.file us o) {f : Nat} (hf : us.length ≤ f) (hf0 : 0 < f) {s : LS}
    (hs : Loading rd us s) : ∃ seen' s', loadXref cfg (fun env => getObject env fo) rs f o [] s = .ok (seen', s') ∧ Loading rd us s' := by
  cases h with
  | table h1 h2 h3 =>
    rw [hcd] at h1
    obtain ⟨seen', s', k1, k2⟩ := chain_load rs h1 rfl f [] s hs.sh (by omega) (by intro x hx; cases hx)
    exact ⟨seen', s', k1, k2.loading h2 hs⟩
  | word h =>
    obtain ⟨d, h1, hnd, h2, h3⟩ := h s.ps
    obtain ⟨g, rfl⟩ : ∃ g, f = g + 1 := ⟨f - 1, by omega⟩
    obtain ⟨ps, k1⟩ := loadXref_word (fun env => getObject env fo) rs h1 h2 g
    refine ⟨_, _, k1, hs.xref, fun k v hv => ?_, hs.sh⟩
    have hv : (s.trailer.merge d).get? k = some v := hv
    rw [Assoc.get?_merge_uniq _ hnd] at hv
    cases hw : d.get? k with
    | none => rw [hw] at hv; exact hs.trailer k v hv
    | some w =>
      rw [hw] at hv
      cases hv
      right
      rcases h3 with rfl | h3
      · cases hw
      · exact ⟨d, h3, hw⟩

theorem loadAll_sections {rd : Reading} {cfg : Cfg} (hcd : rd.cd = cfg.ext.toCodecs) {fo : Nat} (rs : Env → Resolver) {us : List Update} {f : Nat} (hf : us.length ≤ f) (hf0 : 0 < f) : ∀ (l : List Int),
    (∀ x ∈ l, ∃ o : Nat, x = o ∧ Section rd cfg.file us o) → ∀ (l2 : List Int) (s : LS), Loading rd us s →
    ∃ s', Loading rd us s' ∧ loadAll cfg (fun env => getObject env fo) rs f (l ++ l2) s = loadAll cfg (fun env => getObject env fo) rs f l2 s' := by
  intro l
  induction l with
  | nil => intro _ l2 s hs; exact ⟨s, hs, rfl⟩
  | cons x l ih =>
    intro hl l2 s hs
    obtain ⟨o, rfl, ho⟩ := hl x (by simp)
    obtain ⟨seen', s1, h1, h2⟩ := section_load hcd (fo := fo) rs ho hf hf0 hs
    obtain ⟨s2, h3, h4⟩ := ih (fun y hy => hl y (by simp [hy])) l2 s1 h2
    refine ⟨s2, h3, ?_⟩
    rw [List.cons_append, loadAll]
    exact (bind_of_ok h1).trans h4

/-! ### When the offsets lead nowhere -/

theorem listFor_append (a b : List Update) (n : Int) : listFor (a ++ b) n = (listFor b n).or (listFor a n) := by
  rw [listFor, List.flatMap_append, lastFor_append]; rfl

theorem trailFor_append (a b : List Update) (k : Bytes) : trailFor (a ++ b) k = (trailFor b k).or (trailFor a k) := by
  rw [trailFor, List.flatMap_append, lastFor_append]; rfl

theorem chainEntries_eq (c : List (Nat × Update)) (n : Int) : lastFor (chainEntries c) n = listFor (c.map (·.2)).reverse n := by
  rw [listFor, ← List.map_reverse, List.flatMap_map]; rfl

theorem chainTrailer_eq (c : List (Nat × Update)) (k : Bytes) : lastFor (chainTrailer c) k = trailFor (c.map (·.2)).reverse k := by
  rw [trailFor, ← List.map_reverse, List.flatMap_map]; rfl

theorem or_again {α : Type} (a b : Option α) : a.or (a.or b) = a.or b := by cases a <;> rfl

theorem or_again' {α : Type} (v a b : Option α) : (v.or a).or (a.or b) = (v.or a).or b := by cases v <;> cases a <;> rfl

/-- The sections of the updates `past`, the newest first, have been loaded. -/
structure Loaded (rd : Reading) (file : Bytes) (all past : List Update) (s : LS) : Prop where
  xref : ∀ n, Says file n (listFor past.reverse n) none (s.xref.get? n)
  trailer : ∀ k, (∀ d, FirstRaw rd all.tail d → d.get? k = none) → s.trailer.get? k = trailFor past.reverse k
  loading : Loading rd all s

/-- loading a section again -/
theorem Leads.again {rd : Reading} {file : Bytes} {stray : Option Int → Prop} {all past : List Update} {p : Nat} {u : Update} {k : Nat} {c : List (Nat × Update)} {older : List Update}
    (h : Leads rd.cd file stray past p u k c older) (hall : ∀ v ∈ past, v ∈ all) {s s' : LS} (hs : Loaded rd file all past s) (ha : Adds file s s' ((p, u) :: c)) : Loaded rd file all past s' := by
  refine ⟨fun n => ?_, fun k hk => ?_, ha.loading (fun x hx => hall _ (h.mem x hx)) hs.loading⟩
  · have := (hs.xref n).trans (ha.xref n)
    rw [chainEntries_eq] at this
    rw [h.past, List.reverse_append, listFor_append] at this ⊢
    rw [or_again] at this
    exact this
  · rw [ha.trailer, hs.trailer k hk, chainTrailer_eq, h.past, List.reverse_append, trailFor_append, or_again]

/-- loading a section the first time -/
theorem Leads.first {rd : Reading} {file : Bytes} {stray : Option Int → Prop} {all past : List Update} {p : Nat} {u : Update} {k : Nat} {c : List (Nat × Update)} {older : List Update}
    (h : Leads rd.cd file stray (u :: past) p u k c older) (hall : ∀ v ∈ u :: past, v ∈ all) {s s' : LS} (hs : Loaded rd file all past s) (ha : Adds file s s' ((p, u) :: c)) : Loaded rd file all (u :: past) s' := by
  have e : past = c.map (·.2) ++ older := (List.cons.inj h.past).2
  refine ⟨fun n => ?_, fun k hk => ?_, ha.loading (fun x hx => hall _ (h.mem x hx)) hs.loading⟩
  · have := (hs.xref n).trans (ha.xref n)
    rw [chainEntries_eq] at this
    rw [e, List.reverse_append, listFor_append, List.map_cons, List.reverse_cons, listFor_append, or_again'] at this
    rw [e, List.reverse_cons, listFor_append, List.reverse_append, listFor_append, ← Option.or_assoc]
    exact this
  · rw [ha.trailer, hs.trailer k hk, chainTrailer_eq, e, List.reverse_append, trailFor_append, List.map_cons, List.reverse_cons, trailFor_append, or_again']
    rw [List.reverse_cons, trailFor_append, List.reverse_append, trailFor_append, ← Option.or_assoc]

/-- loading what follows `startxref` -/
theorem WordAt.load {rd : Reading} {cfg : Cfg} {fo : Nat} (rs : Env → Resolver) {all past : List Update} {o : Nat} (h : WordAt rd cfg.file all.tail o) {f : Nat} (hf : 0 < f) {s : LS}
    (hs : Loaded rd cfg.file all past s) : ∃ seen' s', loadXref cfg (fun env => getObject env fo) rs f o [] s = .ok (seen', s') ∧ Loaded rd cfg.file all past s' := by
  obtain ⟨d, h1, hnd, h2, h3⟩ := h s.ps
  obtain ⟨g, rfl⟩ : ∃ g, f = g + 1 := ⟨f - 1, by omega⟩
  obtain ⟨ps, k1⟩ := loadXref_word (fun env => getObject env fo) rs h1 h2 g
  refine ⟨_, _, k1, hs.xref, fun k hk => ?_, hs.loading.xref, fun k v hv => ?_, hs.loading.sh⟩
  · show (s.trailer.merge d).get? k = _
    rw [Assoc.get?_merge_uniq _ hnd]
    have : d.get? k = none := by
      rcases h3 with rfl | h3
      · rfl
      · exact hk d h3
    rw [this, Option.none_or]; exact hs.trailer k hk
  · have hv : (s.trailer.merge d).get? k = some v := hv
    rw [Assoc.get?_merge_uniq _ hnd] at hv
    cases hw : d.get? k with
    | none => rw [hw] at hv; exact hs.loading.trailer k v hv
    | some w =>
      rw [hw] at hv
      cases hv
      right
      rcases h3 with rfl | h3
      · cases hw
      · exact ⟨d, h3, hw⟩

/-- Where the sections are. -/
def places : Nat → List Update → List Nat
  | _, [] => []
  | pos, u :: us => u.place pos :: places (pos + u.text.length) us

theorem Sections.le {rd : Reading} {file : Bytes} {stray : Option Int → Prop} {pos : Nat} {past us : List Update} (h : Sections rd file stray pos past us) : ∀ o ∈ xrefWords pos us, pos ≤ o := by
  induction h with
  | nil => intro o ho; cases ho
  | cons _ _ h1 h2 h3 _ ih =>
    intro o ho
    rcases List.mem_cons.1 ho with rfl | ho
    · exact h1
    · rcases List.mem_cons.1 ho with rfl | ho
      · omega
      · have := ih o ho; omega

theorem places_words : ∀ {us : List Update} {pos o : Nat}, o ∈ places pos us → o ∈ xrefWords pos us
  | [], _, _, h => by cases h
  | u :: us, pos, o, h => by
    rw [places] at h
    rw [xrefWords]
    rcases List.mem_cons.1 h with rfl | h
    · simp
    · have := places_words h
      simp [this]

theorem Sections.load {rd : Reading} {cfg : Cfg} (hcd : rd.cd = cfg.ext.toCodecs) {fo : Nat} (rs : Env → Resolver) {stray : Option Int → Prop} {all : List Update} {f : Nat} (hf : all.length ≤ f) (hf0 : 0 < f)
    {pos : Nat} {past us : List Update} (h : Sections rd cfg.file stray pos past us) : past.reverse ++ us = all → ∀ (l : List Int), l.Pairwise (· ≤ ·) → (∀ x ∈ l, ∃ o : Nat, o ∈ xrefWords pos us ∧ x = o) →
    (∀ o ∈ places pos us, (o : Int) ∈ l) → ∀ (l2 : List Int) (s : LS), Loaded rd cfg.file all past s →
    ∃ s', Loaded rd cfg.file all (us.reverse ++ past) s' ∧ loadAll cfg (fun env => getObject env fo) rs f (l ++ l2) s = loadAll cfg (fun env => getObject env fo) rs f l2 s' := by
  induction h with
  | nil =>
    intro hall l hs hw hp l2 s hL
    cases l with
    | nil => exact ⟨s, hL, rfl⟩
    | cons x l =>
      obtain ⟨o, ho, -⟩ := hw x (by simp)
      cases ho
  | @cons pos past u us k c older hc hword h1 h2 h3 hrest ih =>
    intro hall l hs hw hp l2 s hL
    have hmem : ∀ v ∈ u :: past, v ∈ all := by
      intro v hv
      rw [← hall]
      simp only [List.mem_cons, List.mem_append, List.mem_reverse] at hv ⊢
      rcases hv with h | h
      · exact .inr (.inl h)
      · exact .inl h
    have hcost : k ≤ f := by
      have := hc.cost
      have e := congrArg List.length hall
      simp only [List.length_cons, List.length_append, List.length_reverse] at this e
      omega
    have hchain : Chain cfg.ext.toCodecs cfg.file k ((u.place pos, u) :: c) := hcd ▸ hc.chain
    have hlater := hrest.le
    have hword : WordAt rd cfg.file all.tail (u.word pos) := hword.mono fun v hv => by rw [← hall]; exact mem_tail_append hv
    have again : ∀ t : List Int, t.Pairwise (· ≤ ·) → (∀ x ∈ t, ∃ o : Nat, o ∈ xrefWords pos (u :: us) ∧ x = o) → (∀ o ∈ places (pos + u.text.length) us, (o : Int) ∈ t) →
        ∀ s : LS, Loaded rd cfg.file all (u :: past) s →
        ∃ s', Loaded rd cfg.file all (us.reverse ++ (u :: past)) s' ∧ loadAll cfg (fun env => getObject env fo) rs f (t ++ l2) s = loadAll cfg (fun env => getObject env fo) rs f l2 s' := by
      intro t
      induction t with
      | nil => intro hs hw hp s hL; exact ih (by rw [← hall]; simp) [] hs (by intro x hx; cases hx) hp l2 s hL
      | cons y t iht =>
        intro hs hw hp s hL
        by_cases hy : y < ((pos + u.text.length : Nat) : Int)
        · have step : ∃ seen' s1, loadXref cfg (fun env => getObject env fo) rs f y [] s = .ok (seen', s1) ∧ Loaded rd cfg.file all (u :: past) s1 := by
            obtain ⟨o, ho, rfl⟩ := hw y (by simp)
            rcases List.mem_cons.1 ho with rfl | ho
            · obtain ⟨seen', s1, j1, j2⟩ := chain_load (fo := fo) rs hchain rfl f [] s hL.loading.sh hcost (by intro x hx; cases hx)
              exact ⟨seen', s1, j1, hc.again hmem hL j2⟩
            · rcases List.mem_cons.1 ho with rfl | ho
              · exact hword.load rs hf0 hL
              · have := hlater o ho; omega
          obtain ⟨seen', s1, j1, j2⟩ := step
          obtain ⟨s2, i1, i2⟩ := iht (List.pairwise_cons.1 hs).2 (fun x hx => hw x (by simp [hx])) (fun o ho => by
            rcases List.mem_cons.1 (hp o ho) with h | h
            · have := hlater o (places_words ho); omega
            · exact h) s1 j2
          refine ⟨s2, i1, ?_⟩
          rw [List.cons_append, loadAll]
          exact (bind_of_ok j1).trans i2
        · refine ih (by rw [← hall]; simp) (y :: t) hs (fun x hx => ?_) hp l2 s hL
          obtain ⟨o, ho, e⟩ := hw x hx
          have hx' : y ≤ x := by
            rcases List.mem_cons.1 hx with rfl | hx
            · omega
            · exact (List.pairwise_cons.1 hs).1 x hx
          rcases List.mem_cons.1 ho with rfl | ho
          · omega
          · rcases List.mem_cons.1 ho with rfl | ho
            · omega
            · exact ⟨o, ho, e⟩
    have hp0 := hp (u.place pos) (by simp [places])
    cases l with
    | nil => cases hp0
    | cons x l =>
      have hx : x = (u.place pos : Int) := by
        obtain ⟨o, ho, rfl⟩ := hw x (by simp)
        have hle : (o : Int) ≤ u.place pos := by
          rcases List.mem_cons.1 hp0 with h | h
          · omega
          · exact (List.pairwise_cons.1 hs).1 _ h
        rcases List.mem_cons.1 ho with rfl | ho
        · rfl
        · rcases List.mem_cons.1 ho with rfl | ho
          · omega
          · have := hlater o ho; omega
      subst hx
      obtain ⟨seen', s1, j1, j2⟩ := chain_load (fo := fo) rs hchain rfl f [] s hL.loading.sh hcost (by intro x hx; cases hx)
      obtain ⟨s2, i1, i2⟩ := again l (List.pairwise_cons.1 hs).2 (fun x hx => hw x (by simp [hx])) (fun o ho => by
        rcases List.mem_cons.1 (hp o (by simp [places, ho])) with h | h
        · have := hlater o (places_words ho); omega
        · exact h) s1 (hc.first hmem hL j2)
      refine ⟨s2, by rw [List.reverse_cons, List.append_assoc]; exact i1, ?_⟩
      rw [List.cons_append, loadAll]
      exact (bind_of_ok j1).trans i2

/-- A placed object of a document in terms of the file. -/
theorem document_place {rd : Reading} {P : Bytes} {us : List Update} (hd : Document rd P us) {n : Int} {q : Nat × Part} (h : lastPlaced (placed P.length us) n = some q) :
    q.2.obj.number = n ∧ ∃ pre gs T R, LastMarker (docText P us) pre gs n ∧ pre.length = q.1 ∧ q.2.obj.generation = Spec.decVal gs ∧ Spec.decVal gs < 2 ^ 63 ∧
      (docText P us).drop q.1 = T ++ R ∧ ObjectText rd q.2.obj q.2.notes T := by
  have hf := lastPlaced_noText (placed_flat hd) n
  rw [h] at hf
  obtain ⟨q', hq', e⟩ := Option.map_eq_some_iff.1 hf
  obtain ⟨h1, as, bs, h2, h3⟩ := List.find?_eq_some_iff_append.1 hq'
  have hn : q'.2.obj.number = n := by simpa using h1
  have e0 : placedParts P.length (flat us) = bs.reverse ++ q' :: as.reverse := by
    have := congrArg List.reverse h2
    simpa using this
  obtain ⟨ps1, ps2, e1, e2, e3⟩ := placedParts_split e0
  have e4 : q'.1 = q.1 := congrArg (·.1) e
  have e5 : q'.2.obj = q.2.obj := congrArg (·.2.1) e
  have e6 : q'.2.notes = q.2.notes := congrArg (·.2.2) e
  obtain ⟨gs, k1, k2, k3⟩ := hd.made.last_at e1 hn (fun p hp => by
    rw [← e3] at hp
    obtain ⟨x, hx, rfl⟩ := List.mem_map.1 hp
    have := h3 x (List.mem_reverse.1 hx)
    simpa using this)
  rw [← hd.text] at k1
  refine ⟨e5 ▸ hn, _, gs, q'.2.text, joined ps2 ++ endOf us, k1, ?_, e5 ▸ k2, k3, ?_, ?_⟩
  · rw [List.length_append, ← e2, e4]
  · rw [hd.text, e1, joined_append, joined_cons, ← e4, e2]
    have : P ++ (joined ps1 ++ (q'.2.text ++ joined ps2) ++ endOf us) = (P ++ joined ps1) ++ (q'.2.text ++ (joined ps2 ++ endOf us)) := by simp
    rw [this]
    exact drop_app (by simp)
  · rw [← e5, ← e6]
    exact flat_parts hd.updates q'.2 (by rw [e1]; simp)

/-- Where the sections are, in terms of the file. -/
theorem places_at {rd : Reading} {stray : Option Int → Prop} {file : Bytes} : ∀ {us : List Update} {pos : Nat} {prev : Option Nat}, Updates rd stray pos prev us → ∀ {A : Bytes}, A.length = pos →
    file = A ++ us.flatMap (·.text) → ∀ o ∈ places pos us, (∃ a b, file = a ++ (b!"xref" ++ b) ∧ a.length = o) ∨ ∃ u ∈ us, ∃ subs w0 w1 w2 x, u.sect = .stream subs w0 w1 w2 o x := by
  intro us
  induction us with
  | nil => intro pos prev h; cases h
  | cons u us ih =>
    intro pos prev h A hA hfile o ho
    have hu : ∃ r, UpdateAt rd stray pos prev u r := by
      cases h with
      | last h _ => exact ⟨_, h⟩
      | cons h _ _ => exact ⟨_, h⟩
    obtain ⟨r, hu⟩ := hu
    rw [places] at ho
    rcases List.mem_cons.1 ho with rfl | ho
    · cases hu.sect with
      | @table subs trailer notes front dict gap he _ _ hx _ _ =>
        left
        obtain ⟨t, rfl⟩ := hx
        refine ⟨A ++ joined u.parts, t ++ (60 :: 60 :: (dict ++ (gap ++ (u.back ++ us.flatMap (·.text))))), ?_, ?_⟩
        · rw [hfile]; simp [Update.text, Update.tail, he, Sect.text]
        · rw [List.length_append, hA, Update.place, he]
      | @stream subs w0 w1 w2 x ps D more extra he hps _ _ _ _ _ _ _ _ _ _ _ _ =>
        have hpl : u.place pos = pos + (joined ps).length := by rw [Update.place, he, hps, List.dropLast_concat]
        exact .inr ⟨u, by simp, subs, w0, w1, w2, x, by rw [he, hpl]⟩
    · cases h with
      | last _ _ => cases ho
      | cons _ _ h3 =>
        rcases ih h3 (A := A ++ u.text) (by rw [List.length_append, hA]) (by rw [hfile]; simp) o ho with h | ⟨v, hv, h⟩
        · exact .inl h
        · exact .inr ⟨v, by simp [hv], h⟩

theorem FirstRaw.none {rd : Reading} {us : List Update} {k : Bytes} (h : ∀ d, FirstDict us d → d.get? k = none) {d : Dict} (hd : FirstRaw rd us d) : d.get? k = none := by
  obtain ⟨v, hv, p, a, h1, h2, h3⟩ := hd
  obtain ⟨d', e1, e2⟩ := Reading.dict h2 h3
  exact (e2 _).1.2 (h d' ⟨v, hv, p, h1, e1⟩)

attribute [local irreducible] getStartXrefOffset in
/-- `Load` of a document, up to the repair of entries and the encryption dictionary. -/
theorem document_loads {rd : Reading} {cfg : Cfg} (hcd : rd.cd = cfg.ext.toCodecs) {P : Bytes} {us : List Update} (hd : Document rd P us) (hf : cfg.file = docText P us) (f fx : Nat) (hfx : us.length ≤ fx) (s0 : PS) :
    ∃ offs objs sp s1, loadPlan cfg (fun env => resolver env (f + 1)) { LS.init with ps := s0 } = .ok ((offs, objs), sp) ∧
      loadAll cfg (fun env => getObject env (f + 1)) (fun env => resolver env (f + 1)) fx offs sp = .ok ((), s1) ∧ (objs.map (·.1)).Nodup ∧
      (∀ pre ds gs n, Marker cfg.file pre ds gs → IsInt64Of (Spec.decVal ds) n → ∃ o, objs.get? n = some o) ∧
      (∀ n o, objs.get? n = some o → ∃ pre ds, LooseAt cfg.file pre ds ∧ IsInt64Of (Spec.decVal ds) n ∧ o.offset = pre.length ∧ o.typ = 1 ∧
        (∀ ds gs, Marker cfg.file pre ds gs → IsInt64Of (Spec.decVal gs) o.generation) ∧
        ∀ pre' ds' gs', Marker cfg.file pre' ds' gs' → IsInt64Of (Spec.decVal ds') n → pre'.length ≤ pre.length) ∧
      (∀ n, Says cfg.file n (entryFor us n) none (s1.xref.get? n)) ∧ (∀ k v, trailerFor us k = some v → s1.trailer.get? k = some v) ∧
      (∀ k v, s1.trailer.get? k = some v → trailerFor us k ≠ none ∨ ∃ d, FirstRaw rd us.tail d ∧ d.get? k = some v) ∧ s1.sh = newSecurityHandler := by
  have hm := hd.made
  have ht := hd.text
  have hfile : cfg.file = P ++ us.flatMap (·.text) := hf
  obtain ⟨objs, q1, h1, h2⟩ := hm.scan_streams (cfg := cfg) (by rw [hf, ht]) f (s := { LS.init with ps := seek s0 cfg.file.length }) rfl
  obtain ⟨f1, f2, f3⟩ := findObjects_found h1
  have hstr : ∀ x ∈ (objs.filter (fun o => o.2.isXrefStream)).map (fun o => o.2.offset), ∃ o : Nat, o ∈ xrefWords P.length us ∧ x = (o : Int) := by
    intro x hx
    obtain ⟨y, hy, rfl⟩ := List.mem_map.1 hx
    obtain ⟨hy, hX⟩ := List.mem_filter.1 hy
    obtain ⟨ps1, p, ps2, e1, e2, e3⟩ := h2 y.1 y.2 (Assoc.get?_of_mem' f3 hy) hX
    have hmem : (P.length + (joined ps1).length, p) ∈ placedParts P.length (flat us) := by
      rw [e1, placedParts_append, placedParts]; simp
    have hmem' : noText (P.length + (joined ps1).length, p) ∈ (placed P.length us).map noText := by
      rw [← placed_flat hd]; exact List.mem_map_of_mem hmem
    obtain ⟨z, hz, e⟩ := List.mem_map.1 hmem'
    have e4 : z.1 = P.length + (joined ps1).length := congrArg (·.1) e
    have e5 : z.2.obj = p.obj := congrArg (·.2.1) e
    refine ⟨z.1, stream_place hd.updates z hz (by rw [e5]; exact e3), ?_⟩
    rw [e2, e4, List.length_append]
  have bound : ∀ {k q v c}, Chain cfg.ext.toCodecs cfg.file k ((q, v) :: c) → q < 2 ^ 63 := by
    intro k q v c k2
    have h3 := hd.short
    rw [← hf] at h3
    have : ∀ u, SectIn cfg.ext.toCodecs cfg.file q u → q ≤ cfg.file.length := by
      intro u ht
      by_cases h : q ≤ cfg.file.length
      · exact h
      · exfalso
        have hnil : cfg.file.drop q = [] := List.drop_eq_nil_of_le (by omega)
        cases ht with
        | table _ _ _ _ hr =>
          rw [hnil] at hr
          have := congrArg List.length hr
          simp at this
        | stream _ ho hr _ _ _ _ _ _ _ _ _ =>
          rw [hnil] at hr
          have := (List.append_eq_nil_iff.1 hr.symm).1
          obtain ⟨ds, gs, W, W', body, u, hF⟩ := ho.frame
          have e := hF.text
          rw [this] at e
          have := congrArg List.length e
          simp at this
    have : q ≤ cfg.file.length := by
      cases k2 with
      | one ht _ => exact this _ ht
      | lost ht _ _ => exact this _ ht
      | cons ht _ _ _ _ => exact this _ ht
    omega
  have hplan : ∀ {q : Nat}, EndsInStart cfg.file q → q < 2 ^ 63 → loadPlan cfg (fun env => resolver env (f + 1)) { LS.init with ps := s0 } =
      .ok ((sortInts (findXrefLoop cfg.file (cfg.file.length + 1) 0 [] ++ (objs.filter (fun o => o.2.isXrefStream)).map (fun o => o.2.offset)) ++ [(q : Int)], objs), { LS.init with ps := (getStartXrefOffset cfg.file q1).2 }) := by
    intro q k4 hq
    rw [loadPlan]
    refine (bind_of_ok (a := findXrefLoop cfg.file (cfg.file.length + 1) 0 []) (t := { LS.init with ps := seek s0 cfg.file.length }) ?_).trans ?_
    · show (Res.ok (findXrefOffsets cfg.file s0) >>= fun p => Res.ok (p.1, ({ LS.init with ps := p.2 } : LS))) = _
      rw [findXrefOffsets]; rfl
    refine (bind_of_ok h1).trans ?_
    refine (bind_of_ok (a := some (q : Int)) (t := { LS.init with ps := (getStartXrefOffset cfg.file q1).2 }) ?_).trans ?_
    · show (Res.ok (getStartXrefOffset cfg.file q1) >>= fun p => Res.ok (p.1, ({ LS.init with ps := p.2 } : LS))) = _
      rw [show getStartXrefOffset cfg.file q1 = (some (q : Int), (getStartXrefOffset cfg.file q1).2) from Prod.ext (getStart_text k4 (by omega) q1) rfl]
      rfl
    rfl
  have hinit : Loading rd us { LS.init with ps := (getStartXrefOffset cfg.file q1).2 } := ⟨(fun n e he => by cases he), (fun k v hv => by cases hv), rfl⟩
  have hwords : ∀ x ∈ sortInts (findXrefLoop cfg.file (cfg.file.length + 1) 0 [] ++ (objs.filter (fun o => o.2.isXrefStream)).map (fun o => o.2.offset)), ∃ o : Nat, o ∈ xrefWords P.length us ∧ x = (o : Int) := by
    intro x hx
    rcases List.mem_append.1 (mem_sortInts.1 hx) with hx | hx
    · rcases (findXrefLoop_iff cfg.file _ 0 [] (by omega) (Nat.zero_le _) x).1 hx with h | ⟨pre, r, e, -, rfl⟩
      · cases h
      · exact ⟨pre.length, hd.words pre r (by rw [← hf]; exact e), rfl⟩
    · exact hstr x hx
  have hne : 0 < us.length := by
    cases us with
    | nil => cases hd.updates
    | cons _ _ => simp
  have main : ∀ {L : List Update} {k m : Nat} {v : Update} {c : List (Nat × Update)}, L.Perm us → (∀ n, entryFor us n = listFor L n) → (∀ k, trailerFor us k = trailFor L k) →
      (∀ o ∈ xrefWords P.length us, Section rd cfg.file us o) → Chain rd.cd cfg.file k ((m, v) :: c) → k ≤ us.length → ((m, v) :: c).map (·.2) = L.reverse → EndsInStart cfg.file m →
      ∃ offs objs sp s1, loadPlan cfg (fun env => resolver env (f + 1)) { LS.init with ps := s0 } = .ok ((offs, objs), sp) ∧
      loadAll cfg (fun env => getObject env (f + 1)) (fun env => resolver env (f + 1)) fx offs sp = .ok ((), s1) ∧ (objs.map (·.1)).Nodup ∧
      (∀ pre ds gs n, Marker cfg.file pre ds gs → IsInt64Of (Spec.decVal ds) n → ∃ o, objs.get? n = some o) ∧
      (∀ n o, objs.get? n = some o → ∃ pre ds, LooseAt cfg.file pre ds ∧ IsInt64Of (Spec.decVal ds) n ∧ o.offset = pre.length ∧ o.typ = 1 ∧
        (∀ ds gs, Marker cfg.file pre ds gs → IsInt64Of (Spec.decVal gs) o.generation) ∧
        ∀ pre' ds' gs', Marker cfg.file pre' ds' gs' → IsInt64Of (Spec.decVal ds') n → pre'.length ≤ pre.length) ∧
      (∀ n, Says cfg.file n (entryFor us n) none (s1.xref.get? n)) ∧ (∀ k v, trailerFor us k = some v → s1.trailer.get? k = some v) ∧
      (∀ k v, s1.trailer.get? k = some v → trailerFor us k ≠ none ∨ ∃ d, FirstRaw rd us.tail d ∧ d.get? k = some v) ∧ s1.sh = newSecurityHandler := by
    intro L k m v c hL hE hT k1 k2 k5 k3 k4
    have hchain : Chain cfg.ext.toCodecs cfg.file k ((m, v) :: c) := hcd ▸ k2
    have hcost : k ≤ fx := by omega
    have hin : ∀ x ∈ (m, v) :: c, x.2 ∈ us := by
      intro x hx
      have : x.2 ∈ ((m, v) :: c).map (·.2) := List.mem_map_of_mem hx
      rw [k3] at this
      exact hL.subset (List.mem_reverse.1 this)
    obtain ⟨s2, j1, j2⟩ := loadAll_sections hcd (fo := f + 1) (fun env => resolver env (f + 1)) hfx (by omega) _ (fun x hx => by
      obtain ⟨o, ho, e⟩ := hwords x hx
      exact ⟨o, e, k1 o ho⟩) [(m : Int)] { LS.init with ps := (getStartXrefOffset cfg.file q1).2 } hinit
    obtain ⟨seen', s3, i1, i2⟩ := chain_load (cfg := cfg) (fo := f + 1) (fun env => resolver env (f + 1)) hchain rfl fx [] s2 j1.sh hcost (by intro x hx; cases hx)
    have i3 := i2.loading hin j1
    refine ⟨_, objs, _, s3, hplan k4 (bound hchain), ?_, f3, f1, f2, fun n => ?_, fun k v hv => ?_, fun k v hv => ?_, i3.sh⟩
    · rw [j2, loadAll]
      exact (bind_of_ok i1).trans rfl
    · have hx := i2.xref n
      rw [chainEntries_eq, k3, List.reverse_reverse] at hx
      rw [hE]
      cases hl : listFor L n with
      | some x => rw [hl] at hx; exact hx
      | none =>
        have h2 : s2.xref.get? n = none := by
          cases h2 : s2.xref.get? n with
          | none => rfl
          | some e => exact absurd (listFor_perm hL hl) (j1.xref n e h2)
        rw [hl, h2] at hx; exact hx
    · rw [hT] at hv
      rw [i2.trailer, chainTrailer_eq, k3, List.reverse_reverse, hv]; rfl
    · rcases i3.trailer k v hv with h | h
      · exact .inl fun e => h (trailFor_perm hL (by rw [← hT]; exact e))
      · exact .inr h
  cases hd.sections with
  | linked hU =>
    obtain ⟨k1, q, v, k, c, older, m, k2, k4, k5⟩ := sections (fun _ h => h.elim) hU (A := P) (past := []) rfl hfile .start
    rw [List.append_nil] at k2
    have k5 : m = q := k5.resolve_right id
    subst k5
    refine main (.refl _) (entryFor_plain hU.plain) (trailerFor_plain hU.plain) (k1.section (by simp) (fun _ h => h) (fun _ h => h) (by simp)) k2.chain
      (by have := k2.cost; rw [List.length_reverse] at this; exact this) ?_ k4
    rw [k2.past, k2.all fun _ h => h, List.append_nil]
  | linearized hU =>
    cases hU with
    | @mk u v us r r' x h1 g2 h3 h4 h5 h6 h7 =>
      have hlin : linear (u :: v :: us) = true := by rw [linear, h3]; rfl
      have e1 : cfg.file = P ++ (u.text ++ (v :: us).flatMap (·.text)) := hfile
      have e2 : cfg.file = (P ++ u.text) ++ (v.text ++ us.flatMap (·.text)) := by rw [hfile]; simp
      have e3 : cfg.file = (P ++ u.text ++ v.text) ++ us.flatMap (·.text) := by rw [hfile]; simp
      have t1 : SectIn rd.cd cfg.file (u.place P.length) u := by rw [e1]; exact h1.sectIn rfl
      have t2 : SectIn rd.cd cfg.file (v.place (P.length + u.text.length)) v := by rw [e2]; exact h5.sectIn (List.length_append ..)
      have p1 := h1.place_le
      have p2 := h5.place_le
      have c2 : Chain rd.cd cfg.file 1 [(v.place (P.length + u.text.length), v)] := .one t2 (h5.noPrev rfl)
      have c1 : Chain rd.cd cfg.file 2 [(u.place P.length, u), (v.place (P.length + u.text.length), v)] := .cons t1 h3 h4 (by
        intro y hy
        rw [List.mem_singleton] at hy
        subst hy
        show v.place _ ≠ u.place _
        omega) c2
      have w1 : WordAt rd cfg.file (v :: us) (u.word P.length) := wordAt_next h1 rfl g2 h5 h6 e1
      have s1 : Section rd cfg.file (u :: v :: us) (u.place P.length) := .table c1 (by
        intro x hx
        rcases List.mem_cons.1 hx with rfl | hx
        · simp
        · rw [List.mem_singleton] at hx
          subst hx; simp) (by simp)
      have s2 : Section rd cfg.file (u :: v :: us) (v.place (P.length + u.text.length)) := .table c2 (by
        intro x hx
        rw [List.mem_singleton] at hx
        subst hx; simp) (by simp)
      have hperm : (v :: u :: us).Perm (u :: v :: us) := .swap _ _ _
      rcases h7 with ⟨rfl, hb, h9⟩ | ⟨h8, h9⟩
      · have w2 : WordAt rd cfg.file [v] (v.word (P.length + u.text.length)) := wordAt_last h5 (List.length_append ..) e2 _
        refine main hperm (entryFor_linear hlin) (trailerFor_linear hlin) (fun o ho => ?_) c1 (by simp) rfl ?_
        · simp only [xrefWords, List.mem_cons, List.not_mem_nil, or_false] at ho
          rcases ho with rfl | rfl | rfl | rfl
          · exact s1
          · exact .word w1
          · exact s2
          · exact .word w2
        · have e4 : cfg.file = (P ++ u.text) ++ v.text := by rw [e2]; simp
          rw [e4]
          exact hb.endsIn h9
      · have hb : Before rd.cd cfg.file (fun _ => False) (P.length + u.text.length + v.text.length) (some (u.place P.length)) [u, v] :=
          .after (older := []) ⟨c1, by simp, rfl, fun _ => rfl⟩ (by
            intro y hy
            rcases List.mem_cons.1 hy with rfl | hy
            · show u.place _ < _; omega
            · rw [List.mem_singleton] at hy
              subst hy
              exact p2.2)
        obtain ⟨k1, q, w, k, c, older, m, k2, k4, k5⟩ := sections (fun _ h => h.elim) h9 (A := P ++ u.text ++ v.text) (past := [u, v]) (by simp; omega) e3 hb
        have k5 : m = q := k5.resolve_right id
        subst k5
        have w2 : WordAt rd cfg.file us (v.word (P.length + u.text.length)) := by
          have hv : ∃ v' rest, us = v' :: rest ∧ ∃ r', UpdateAt rd (fun _ => False) (P.length + u.text.length + v.text.length) (some (u.place P.length)) v' r' := by
            cases h9 with
            | last h _ => exact ⟨_, _, rfl, _, h⟩
            | cons h _ _ => exact ⟨_, _, rfl, _, h⟩
          obtain ⟨v1, rest', rfl, r', hv⟩ := hv
          exact wordAt_next h5 (List.length_append ..) h8 hv (hv.first (by simp)) e2
        refine main hperm (entryFor_linear hlin) (trailerFor_linear hlin) (fun o ho => ?_) k2.chain ?_ ?_ k4
        · rw [xrefWords, xrefWords] at ho
          rcases List.mem_cons.1 ho with rfl | ho
          · exact s1
          rcases List.mem_cons.1 ho with rfl | ho
          · exact .word w1
          rcases List.mem_cons.1 ho with rfl | ho
          · exact s2
          rcases List.mem_cons.1 ho with rfl | ho
          · exact .word (w2.mono fun x hx => List.mem_cons_of_mem _ hx)
          · exact k1.section (fun x hx => by
              rcases List.mem_cons.1 hx with rfl | hx
              · simp
              · rw [List.mem_singleton] at hx
                subst hx; simp) (fun x hx => by simp [hx]) (fun x hx => by simp [List.mem_of_mem_tail hx]) (by simp only [List.length_cons, List.length_nil]; omega) o ho
        · have := k2.cost
          simp only [List.length_append, List.length_reverse, List.length_cons, List.length_nil] at this ⊢
          omega
        · have e := k2.past
          rw [k2.all fun _ h => h, List.append_nil] at e
          rw [← e]; simp
  | found hU hF hfree =>
    rw [← hf] at hU hF
    obtain ⟨k1, q, v, k, c, older, m, k2, k4, k5⟩ := sections (fun x h => h x rfl) hU (A := P) (past := []) rfl hfile .start
    rw [List.append_nil] at k2
    have hchain : Chain cfg.ext.toCodecs cfg.file k ((q, v) :: c) := hcd ▸ k2.chain
    have hcost : k ≤ fx := by
      have := k2.cost
      rw [List.length_reverse] at this
      omega
    have hmb : m < 2 ^ 63 := by
      rcases k5 with rfl | k5
      · exact bound hchain
      · have := (k5 m rfl).range.2
        omega
    obtain ⟨s2, j1, j2⟩ := k1.load hcd (fo := f + 1) (fun env => resolver env (f + 1)) hfx (by omega) (all := us) rfl _ (sortInts_sorted _) hwords (by
      intro o ho
      refine mem_sortInts.2 ?_
      rcases places_at hU rfl hfile o ho with ⟨a, b, e, rfl⟩ | ⟨u, hu, subs, w0, w1, w2, x, he⟩
      · exact List.mem_append_left _ ((findXrefLoop_iff cfg.file _ 0 [] (by omega) (Nat.zero_le _) _).2 (.inr ⟨a, b, e, Nat.zero_le _, rfl⟩))
      · obtain ⟨⟨D, hD, hty⟩, z, hz, hz'⟩ := hF u hu _ _ _ _ _ _ he
        obtain ⟨hn, pre, gs, T, R, l1, l2, -⟩ := document_place hd hz
        rw [← hf] at l1
        obtain ⟨e, g1, g2, -⟩ := last_found l1 f1 f2
        have ho' : e.offset = (o : Int) := by rw [g2, l2, hz']
        have := findObjects_dict h1 _ e D g1 (by rw [ho', Int.toNat_natCast]; exact hD) b!"XRef" (by rw [dictOf_get]; exact hty)
        refine List.mem_append_right _ (List.mem_map.2 ⟨(x.obj.number, e), List.mem_filter.2 ⟨Assoc.get?_some_mem g1, ?_⟩, ho'⟩)
        simpa using this) [(m : Int)] { LS.init with ps := (getStartXrefOffset cfg.file q1).2 }
      ⟨(fun n => rfl), (fun k _ => rfl), hinit⟩
    rw [List.append_nil] at j1
    have step : ∃ seen' s3, loadXref cfg (fun env => getObject env (f + 1)) (fun env => resolver env (f + 1)) fx m [] s2 = .ok (seen', s3) ∧ Loaded rd cfg.file us us.reverse s3 := by
      rcases k5 with rfl | k5
      · obtain ⟨seen', s3, i1, i2⟩ := chain_load (cfg := cfg) (fo := f + 1) (fun env => resolver env (f + 1)) hchain rfl fx [] s2 j1.loading.sh hcost (by intro x hx; cases hx)
        exact ⟨seen', s3, i1, k2.again (fun v hv => List.mem_reverse.1 hv) j1 i2⟩
      · obtain ⟨g, rfl⟩ : ∃ g, fx = g + 1 := ⟨fx - 1, by omega⟩
        obtain ⟨seen', ps, i1⟩ := (k5 m rfl).load (fun env => getObject env (f + 1)) (fun env => resolver env (f + 1)) g [] s2
        exact ⟨seen', _, i1, ⟨j1.xref, j1.trailer, j1.loading.xref, j1.loading.trailer, j1.loading.sh⟩⟩
    obtain ⟨seen', s3, i1, i2⟩ := step
    have hlin := hU.plain
    simp only [entryFor_plain hlin, trailerFor_plain hlin] at hfree ⊢
    refine ⟨_, objs, _, s3, hplan k4 hmb, ?_, f3, f1, f2, fun n => ?_, fun k v hv => ?_, i2.loading.trailer, i2.loading.sh⟩
    · rw [j2, loadAll]
      exact (bind_of_ok i1).trans rfl
    · have := i2.xref n
      rw [List.reverse_reverse] at this
      exact this
    · rw [i2.trailer k, List.reverse_reverse, hv]
      intro d h
      exact h.none fun d' h' => hfree d' h' k (by rw [hv]; simp)

end Pdf
