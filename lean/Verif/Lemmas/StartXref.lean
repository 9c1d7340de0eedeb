import Verif.Lemmas.Scan
/-!
The offset after the last `startxref`.
-/

namespace Pdf
open Spec

theorem readN_seek (file : Bytes) (s : PS) (off n : Nat) (hn : n ≤ 4096) : (readN file (seek s (off : Int)) n).1 = (file.drop off).take n := by
  have hs : (seek s (off : Int)) = { s with pos := off, lim := off, last := false } := by
    rw [seek, if_neg (by omega)]; rfl
  rw [readN, hs]
  dsimp only
  rw [if_neg (by omega)]
  split
  · dsimp only
    have hb : bufSize = 4096 := rfl
    rw [hb]
    have hk : min n (min (off + 4096) file.length - off) = n ∨ (min n (min (off + 4096) file.length - off) = file.length - off ∧ file.length - off ≤ n) := by omega
    rcases hk with hk | ⟨hk, hk2⟩
    · rw [hk]
    · rw [hk, List.take_of_length_le (by simp), List.take_of_length_le (by simp; omega)]
  · rw [List.drop_eq_nil_of_le (by omega), List.take_nil]

theorem getStart_eq (file : Bytes) (s : PS) :
    (getStartXrefOffset file s).1 = startOffset (file.drop (file.length - 256) ++ List.replicate (256 - file.length) 0) := by
  have h1 : (readN file (seek (seek s file.length) ((file.length - 256 : Nat) : Int)) 256).1 = file.drop (file.length - 256) := by
    rw [readN_seek _ _ _ _ (by omega), List.take_of_length_le (by rw [List.length_drop]; omega)]
  rw [getStartXrefOffset]
  generalize readN file (seek (seek s file.length) ((file.length - 256 : Nat) : Int)) 256 = q at *
  obtain ⟨b, s⟩ := q
  dsimp only at *
  rw [h1, List.length_drop, show 256 - (file.length - (file.length - 256)) = 256 - file.length by omega]

theorem mem_takeWhile_of {p : UInt8 → Bool} {l : Bytes} {b : UInt8} (h : b ∈ l.takeWhile p) : p b = true := by
  induction l with
  | nil => cases h
  | cons c l ih =>
    rw [List.takeWhile_cons] at h
    split at h
    · rcases List.mem_cons.1 h with rfl | h
      · assumption
      · exact ih h
    · cases h

theorem startXrefRe_shape {s d r : Bytes} (h : startXrefRe s = some (d, r)) : ∃ m, s = 115 :: (m ++ r) ∧ ∀ b ∈ m, b ≠ 115 := by
  rw [startXrefRe] at h
  split at h
  · rename_i hp
    rw [List.isPrefixOf_iff_prefix] at hp
    obtain ⟨t, rfl⟩ := hp
    have hd : (b!"startxref" ++ t).drop 9 = t := rfl
    rw [hd] at h
    dsimp only at h
    split at h
    · cases h
    · split at h
      · rename_i hp2
        rw [List.isPrefixOf_iff_prefix] at hp2
        obtain ⟨u, hu⟩ := hp2
        simp only [Option.some.injEq, Prod.mk.injEq] at h
        obtain ⟨-, h⟩ := h
        have hr : r = u := by
          rw [← h, ← hu]; rfl
        subst hr
        have e1 := List.takeWhile_append_dropWhile (p := isSpace) (l := t)
        have e2 := List.takeWhile_append_dropWhile (p := isDigit) (l := t.dropWhile isSpace)
        have e3 := List.takeWhile_append_dropWhile (p := isSpace) (l := (t.dropWhile isSpace).dropWhile isDigit)
        rw [← hu] at e3
        refine ⟨b!"tartxref" ++ (t.takeWhile isSpace ++ ((t.dropWhile isSpace).takeWhile isDigit ++ (((t.dropWhile isSpace).dropWhile isDigit).takeWhile isSpace ++ b!"%%EOF"))), ?_, ?_⟩
        · simp only [List.append_assoc]
          rw [e3, e2, e1]
          rfl
        · intro b hb
          simp only [List.mem_append] at hb
          rcases hb with hb | hb | hb | hb | hb
          · revert b; decide
          · rintro rfl; exact absurd (mem_takeWhile_of hb) (by decide)
          · rintro rfl; exact absurd (mem_takeWhile_of hb) (by decide)
          · rintro rfl; exact absurd (mem_takeWhile_of hb) (by decide)
          · revert b; decide
      · cases h
  · cases h
theorem last_reach : ∀ (f : Nat) (a y : Bytes) (acc : Option Bytes), a.length + y.length + 1 < f →
    ∃ f' acc', lastStartXref f (a ++ 115 :: y) acc = lastStartXref f' (115 :: y) acc' ∧ y.length + 1 < f' := by
  intro f
  induction f with
  | zero => intro a y acc h; omega
  | succ f ih =>
    intro a y acc h
    cases a with
    | nil => exact ⟨f + 1, acc, rfl, by simpa using h⟩
    | cons c a =>
      rw [List.length_cons] at h
      rw [List.cons_append, lastStartXref]
      cases hm : startXrefRe (c :: (a ++ 115 :: y)) with
      | none => exact ih a y acc (by omega)
      | some p =>
        obtain ⟨d, r⟩ := p
        obtain ⟨m, e, hb⟩ := startXrefRe_shape hm
        obtain ⟨rfl, e'⟩ := List.cons.inj e
        dsimp only
        rcases List.append_eq_append_iff.1 e' with ⟨u, h1, h2⟩ | ⟨u, h1, h2⟩
        · cases u with
          | nil =>
            rw [List.nil_append] at h2
            obtain ⟨f', acc', h3, h4⟩ := ih [] y (some d) (by simp; omega)
            rw [← h2]
            exact ⟨f', acc', h3, h4⟩
          | cons x u =>
            obtain ⟨rfl, -⟩ := List.cons.inj h2
            exact absurd rfl (hb 115 (by rw [h1]; simp))
        · rw [h2]
          exact ih u y (some d) (by have := congrArg List.length h1; rw [List.length_append] at this; omega)

theorem last_none : ∀ (f : Nat) (s : Bytes) (acc : Option Bytes), (∀ a b, s ≠ a ++ (b!"startxref" ++ b)) → lastStartXref f s acc = acc := by
  intro f
  induction f with
  | zero => intro s acc h; rfl
  | succ f ih =>
    intro s acc h
    cases s with
    | nil => rfl
    | cons c t =>
      rw [lastStartXref]
      have : startXrefRe (c :: t) = none := by
        rw [startXrefRe]
        split
        · rename_i hp
          rw [List.isPrefixOf_iff_prefix] at hp
          obtain ⟨u, hu⟩ := hp
          exact absurd hu.symm (h [] u)
        · rfl
      rw [this]
      exact ih t acc fun a b e => h (c :: a) b (by rw [e]; rfl)

theorem dropWhile_all {p : UInt8 → Bool} {w r : Bytes} (hw : ∀ b ∈ w, p b = true) (hr : ∀ b t, r = b :: t → p b = false) :
    (w ++ r).dropWhile p = r ∧ (w ++ r).takeWhile p = w := by
  induction w with
  | nil =>
    cases r with
    | nil => exact ⟨rfl, rfl⟩
    | cons b t => have := hr b t rfl; simp [this]
  | cons c w ih =>
    obtain ⟨h1, h2⟩ := ih fun b hb => hw b (by simp [hb])
    have := hw c (by simp)
    simp [this, h1, h2]

theorem startXrefRe_text {w w' r : Bytes} {ds : List Nat} (hw : ∀ b ∈ w, isSpace b = true) (hw' : ∀ b ∈ w', isSpace b = true) (hne : ds ≠ []) (hd : ∀ d ∈ ds, d < 10) :
    startXrefRe (b!"startxref" ++ (w ++ (ds.map decDigit ++ (w' ++ (b!"%%EOF" ++ r))))) = some (ds.map decDigit, r) := by
  rw [startXrefRe, if_pos (by rw [List.isPrefixOf_iff_prefix]; exact ⟨_, rfl⟩)]
  have e0 : (b!"startxref" ++ (w ++ (ds.map decDigit ++ (w' ++ (b!"%%EOF" ++ r))))).drop 9 = w ++ (ds.map decDigit ++ (w' ++ (b!"%%EOF" ++ r))) := rfl
  rw [e0]
  have hD := digits_map hne hd
  have hdig : ∀ b ∈ ds.map decDigit, isDigit b = true := fun b hb => (isDigit_dec b).2 (hD.2 b hb)
  have h1 : ∀ b t, ds.map decDigit ++ (w' ++ (b!"%%EOF" ++ r)) = b :: t → isSpace b = false := by
    intro b t e
    have hb : isDigit b = true := by
      cases h : ds.map decDigit with
      | nil => exact absurd h hD.1
      | cons x l =>
        rw [h] at e
        obtain ⟨rfl, -⟩ := List.cons.inj e
        exact hdig _ (by rw [h]; simp)
    revert hb
    exact forall_u8 (p := fun b => isDigit b = true → isSpace b = false) (by decide +kernel) b
  have h2 : ∀ b t, w' ++ (b!"%%EOF" ++ r) = b :: t → isDigit b = false := by
    intro b t e
    cases w' with
    | nil =>
      obtain ⟨rfl, -⟩ := List.cons.inj e
      decide
    | cons x l =>
      obtain ⟨rfl, -⟩ := List.cons.inj e
      have hb := hw' x (by simp)
      revert hb
      exact forall_u8 (p := fun b => isSpace b = true → isDigit b = false) (by decide +kernel) x
  have h3 : ∀ b t, b!"%%EOF" ++ r = b :: t → isSpace b = false := by
    intro b t e
    obtain ⟨rfl, -⟩ := List.cons.inj e
    decide
  dsimp only
  rw [(dropWhile_all hw h1).1, (dropWhile_all hdig h2).2, (dropWhile_all hdig h2).1, (dropWhile_all hw' h3).1]
  rw [if_neg (by simpa using hne), if_pos (by rw [List.isPrefixOf_iff_prefix]; exact ⟨_, rfl⟩)]
  rfl

theorem decVal_map (ds : List Nat) (hd : ∀ d ∈ ds, d < 10) : Pdf.decVal (ds.map decDigit) = Spec.decVal ds := by
  rw [Pdf.decVal, Spec.decVal, List.foldl_map]
  suffices h : ∀ v, List.foldl (fun v d => v * 10 + ((decDigit d).toNat - 48)) v ds = List.foldl (fun v d => v * 10 + d) v ds from h 0
  induction ds with
  | nil => intro v; rfl
  | cons d ds ih =>
    intro v
    have : (decDigit d).toNat - 48 = d := by
      have h := hd d (by simp)
      show (UInt8.ofNat (48 + d)).toNat - 48 = d
      rw [UInt8.toNat_ofNat']
      omega
    rw [List.foldl_cons, List.foldl_cons, this]
    exact ih (fun x hx => hd x (by simp [hx])) _

/-- the last `startxref` of a buffer -/
theorem startOffset_text {a w w' r : Bytes} {ds : List Nat} (hw : ∀ b ∈ w, isSpace b = true) (hw' : ∀ b ∈ w', isSpace b = true) (hne : ds ≠ []) (hd : ∀ d ∈ ds, d < 10)
    (hlt : Spec.decVal ds < 9223372036854775808) (hr : ∀ a b, r ≠ a ++ (b!"startxref" ++ b)) :
    startOffset (a ++ (b!"startxref" ++ (w ++ (ds.map decDigit ++ (w' ++ (b!"%%EOF" ++ r)))))) = some (Spec.decVal ds : Int) := by
  have h1 := startXrefRe_text (r := r) hw hw' hne hd
  obtain ⟨f, acc, h2, h3⟩ := last_reach ((a ++ (b!"startxref" ++ (w ++ (ds.map decDigit ++ (w' ++ (b!"%%EOF" ++ r)))))).length + 1) a
    (b!"tartxref" ++ (w ++ (ds.map decDigit ++ (w' ++ (b!"%%EOF" ++ r))))) none
    (by simp only [List.length_append, List.length_cons, List.length_nil]; omega)
  rw [startOffset]
  have h4 : lastStartXref ((a ++ (b!"startxref" ++ (w ++ (ds.map decDigit ++ (w' ++ (b!"%%EOF" ++ r)))))).length + 1)
      (a ++ (b!"startxref" ++ (w ++ (ds.map decDigit ++ (w' ++ (b!"%%EOF" ++ r)))))) none = some (ds.map decDigit) := by
    refine h2.trans ?_
    obtain ⟨f, rfl⟩ : ∃ g, f = g + 1 := ⟨f - 1, by omega⟩
    rw [lastStartXref]
    have h1' : startXrefRe (115 :: (b!"tartxref" ++ (w ++ (ds.map decDigit ++ (w' ++ (b!"%%EOF" ++ r)))))) = some (ds.map decDigit, r) := h1
    rw [h1']
    exact last_none f r _ hr
  rw [h4]
  dsimp only
  rw [decVal_map ds hd, if_pos hlt]

theorem no_start_zeros {r : Bytes} (hr : ∀ a b, r ≠ a ++ (b!"startxref" ++ b)) (k : Nat) : ∀ a b, r ++ List.replicate k 0 ≠ a ++ (b!"startxref" ++ b) := by
  intro a b e
  have hz : ∀ (l : Bytes), (∀ x ∈ l, x ∈ List.replicate k (0 : UInt8)) → ∀ x ∈ l, x = 0 := fun l h x hx => (List.mem_replicate.1 (h x hx)).2
  rcases List.append_eq_append_iff.1 e with ⟨c, h1, h2⟩ | ⟨c, h1, h2⟩
  · have h115 : (115 : UInt8) ∈ List.replicate k (0 : UInt8) := by rw [h2]; simp
    exact absurd (List.mem_replicate.1 h115).2 (by decide)
  · rcases List.append_eq_append_iff.1 h2 with ⟨u, h3, h4⟩ | ⟨u, h3, h4⟩
    · refine hr a u ?_
      rw [h1, h3]
    · by_cases hu : u = []
      · subst hu
        rw [List.append_nil] at h3
        exact hr a [] (by rw [h1, ← h3, List.append_nil])
      · have hmem : ∀ x ∈ u, x = 0 := hz u fun x hx => by rw [h4]; simp [hx]
        obtain ⟨x, u', rfl⟩ : ∃ x u', u = x :: u' := by
          cases u with
          | nil => exact absurd rfl hu
          | cons x u' => exact ⟨x, u', rfl⟩
        have hx : x ∈ b!"startxref" := by rw [h3]; simp
        have := hmem x (by simp)
        subst this
        exact absurd hx (by decide)

/-- `getStartXrefOffset` on a file that ends in `startxref` -/
theorem getStart_text {file : Bytes} {n : Nat} (h : EndsInStart file n) (hn : n < 9223372036854775808) (s : PS) : (getStartXrefOffset file s).1 = some (n : Int) := by
  obtain ⟨a, w, w', r, ds, e, hw, hne, hd, rfl, hlen, hr⟩ := h
  rw [getStart_eq]
  have hsp : ∀ b ∈ w ++ w', isSpace b = true := by
    intro b hb
    rcases hw b hb with rfl | rfl | rfl | rfl | rfl <;> decide
  have e2 : file.drop (file.length - 256) ++ List.replicate (256 - file.length) 0 = a.drop (file.length - 256) ++
      (b!"startxref" ++ (w ++ (ds.map decDigit ++ (w' ++ (b!"%%EOF" ++ (r ++ List.replicate (256 - file.length) 0)))))) := by
    clear hsp
    generalize file.length = L at *
    rw [e, List.drop_append_of_le_length (by omega)]
    simp only [List.append_assoc]
  rw [e2]
  exact startOffset_text (fun b hb => hsp b (by simp [hb])) (fun b hb => hsp b (by simp [hb])) hne hd hn (no_start_zeros hr _)

end Pdf
