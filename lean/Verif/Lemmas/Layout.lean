import Verif.Spec.Layout
import Verif.Lemmas.Load
/-!
Where the markers of a file made up of objects are.
-/

namespace Pdf
open Spec

/-! ### Occurrences of a word -/

/-- An occurrence in `A ++ B` of a word whose tail does not meet the head of `B` and that `A` lacks is in `B`. -/
theorem occ_right {lit A B x y : Bytes} (hA : Lacks lit A) (hB : ∀ b t, B = b :: t → b ∉ lit.tail) (h : A ++ B = x ++ (lit ++ y)) :
    ∃ x', x = A ++ x' ∧ B = x' ++ (lit ++ y) := by
  rcases List.append_eq_append_iff.1 h with ⟨a, e1, e2⟩ | ⟨a, e1, e2⟩
  · exact ⟨a, e1, e2⟩
  · cases a with
    | nil => exact ⟨[], by rw [e1]; simp, by rw [List.nil_append] at e2 ⊢; exact e2.symm⟩
    | cons c a =>
      exfalso
      rcases List.append_eq_append_iff.1 e2 with ⟨z, e3, e4⟩ | ⟨z, e3, e4⟩
      · exact hA x z (by rw [e1, e3])
      · cases z with
        | nil => exact hA x [] (by rw [e1, e3]; simp)
        | cons q z =>
          refine hB q (z ++ y) (by rw [e4]; rfl) ?_
          rw [e3]
          simp

theorem lacks_append {lit A B : Bytes} (hA : Lacks lit A) (hB : Lacks lit B) (h : ∀ b t, B = b :: t → b ∉ lit.tail) : Lacks lit (A ++ B) := by
  intro x y e
  obtain ⟨x', -, e'⟩ := occ_right hA h e
  exact hB _ _ e'

/-- bytes none of which is the first of the word -/
theorem lacks_of {c : UInt8} {lit A : Bytes} (h : c ∉ A) : Lacks (c :: lit) A := by
  intro a b e
  exact h (by rw [e]; simp)

/-! ### Ends of texts -/

theorem suffix_unique {p : UInt8 → Prop} {a b u v : Bytes} (hu : ∀ x ∈ u, p x) (hv : ∀ x ∈ v, p x) (ha : ∀ l x, a = l ++ [x] → ¬ p x)
    (hb : ∀ l x, b = l ++ [x] → ¬ p x) (h : a ++ u = b ++ v) : a = b ∧ u = v := by
  rcases List.append_eq_append_iff.1 h with ⟨z, e1, e2⟩ | ⟨z, e1, e2⟩
  · rcases List.eq_nil_or_concat z with rfl | ⟨z', q, rfl⟩
    · exact ⟨by simpa using e1.symm, by simpa using e2⟩
    · rw [List.concat_eq_append] at e1 e2
      exact absurd (hu q (by rw [e2]; simp)) (hb (a ++ z') q (by rw [e1]; simp))
  · rcases List.eq_nil_or_concat z with rfl | ⟨z', q, rfl⟩
    · exact ⟨by simpa using e1, by simpa using e2.symm⟩
    · rw [List.concat_eq_append] at e1 e2
      exact absurd (hv q (by rw [e2]; simp)) (ha (b ++ z') q (by rw [e1]; simp))

theorem GapUnit.white_of {u : Bytes} (h : GapUnit u) (hn : 37 ∉ u) : ∀ b ∈ u, IsWhite b := by
  cases h with
  | white h => intro b hb; rw [List.mem_singleton.1 hb]; exact h
  | comment h => exact absurd (by simp) hn

theorem Units.white_of {w : Bytes} (h : Units w) (hn : 37 ∉ w) : ∀ b ∈ w, IsWhite b := by
  induction h with
  | one h => exact h.white_of hn
  | cons hu _ ih =>
    intro b hb
    rcases List.mem_append.1 hb with hb | hb
    · exact hu.white_of (fun hm => hn (List.mem_append_left _ hm)) b hb
    · exact ih (fun hm => hn (List.mem_append_right _ hm)) b hb

theorem Units.ne {w : Bytes} (h : Units w) : w ≠ [] := by
  obtain ⟨b, t, rfl, -⟩ := h.head
  simp

theorem white_not_dec {b : UInt8} (h : IsWhite b) : ¬ IsDec b := fun h' => dec_not_gap h' (.inl h)

/-- A gap that does not end in white space ends in an open comment. -/
theorem Units.last {w : Bytes} (h : Units w) : ∀ l x, w = l ++ [x] → IsWhite x ∨ ∃ a c, w = a ++ 37 :: c ∧ ∀ b ∈ c, b ≠ 10 ∧ b ≠ 13 := by
  induction h with
  | one h =>
    intro l x e
    cases h with
    | white h =>
      cases l with
      | nil => cases e; exact .inl h
      | cons _ l => simp at e
    | comment h => exact .inr ⟨[], _, rfl, h⟩
  | @cons u w hu hw ih =>
    intro l x e
    rcases List.eq_nil_or_concat w with rfl | ⟨w', q, rfl⟩
    · exact absurd rfl hw.ne
    · rw [List.concat_eq_append] at e ih
      rw [← List.append_assoc] at e
      obtain ⟨-, e2⟩ := List.append_inj' e rfl
      obtain rfl : q = x := by simpa using e2
      rcases ih w' q rfl with h | ⟨a, c, h1, h2⟩
      · exact .inl h
      · refine .inr ⟨u ++ a, c, ?_, h2⟩
        rw [List.concat_eq_append, h1, List.append_assoc]

/-! ### Markers -/

theorem digits_last {d : Bytes} (h : Digits d) (a : Bytes) : ∀ l x, a ++ d = l ++ [x] → IsDec x := by
  intro l x e
  rcases List.eq_nil_or_concat d with rfl | ⟨d', q, rfl⟩
  · exact absurd rfl h.1
  · rw [List.concat_eq_append, ← List.append_assoc] at e
    obtain ⟨-, e2⟩ := List.append_inj' e rfl
    cases e2
    exact h.2 _ (by simp)

theorem white_last {w : Bytes} (hne : w ≠ []) (h : ∀ b ∈ w, IsWhite b) (a : Bytes) : ∀ l x, a ++ w = l ++ [x] → IsWhite x := by
  intro l x e
  rcases List.eq_nil_or_concat w with rfl | ⟨d', q, rfl⟩
  · exact absurd rfl hne
  · rw [List.concat_eq_append, ← List.append_assoc] at e
    obtain ⟨-, e2⟩ := List.append_inj' e rfl
    cases e2
    exact h _ (by simp)

theorem digits_inj {ds ds' : List Nat} (h : ∀ d ∈ ds, d < 10) (h' : ∀ d ∈ ds', d < 10) (e : ds.map decDigit = ds'.map decDigit) : ds = ds' := by
  induction ds generalizing ds' with
  | nil => cases ds' with
    | nil => rfl
    | cons _ _ => cases e
  | cons d ds ih => cases ds' with
    | nil => cases e
    | cons d' ds' =>
      rw [List.map_cons, List.map_cons] at e
      obtain ⟨e1, e2⟩ := List.cons.inj e
      rw [ih (fun x hx => h x (by simp [hx])) (fun x hx => h' x (by simp [hx])) e2]
      have a := h d (by simp)
      have b := h' d' (by simp)
      have : ∀ x < 10, ∀ y < 10, decDigit x = decDigit y → x = y := by decide
      rw [this d a d' b e1]

/-- the same when the last byte of `A` is not in the word -/
theorem occ_after {lit A B x y : Bytes} (hA : Lacks lit A) (hne : A ≠ []) (hB : ∀ a c, A = a ++ [c] → c ∉ lit) (hl : lit ≠ []) (h : A ++ B = x ++ (lit ++ y)) :
    ∃ x', x = A ++ x' ∧ B = x' ++ (lit ++ y) := by
  rcases List.append_eq_append_iff.1 h with ⟨a, e1, e2⟩ | ⟨a, e1, e2⟩
  · exact ⟨a, e1, e2⟩
  · rcases List.eq_nil_or_concat a with rfl | ⟨a', c, rfl⟩
    · exact ⟨[], by rw [e1]; simp, by rw [List.nil_append] at e2 ⊢; exact e2.symm⟩
    · exfalso
      rw [List.concat_eq_append] at e1 e2
      rcases List.append_eq_append_iff.1 e2 with ⟨z, e3, e4⟩ | ⟨z, e3, e4⟩
      · exact hA x z (by rw [e1, e3])
      · exact hB (x ++ a') c (by rw [e1]; simp) (by rw [e3]; simp)

/-- Two markers with their word `obj` at the same place are the same. -/
theorem marker_unique {file pre W W' r : Bytes} {ds gs : List Nat} (hm : Marker file pre ds gs)
    (he : file = pre ++ (ds.map decDigit ++ (W ++ (gs.map decDigit ++ (W' ++ (b!"obj" ++ r)))))) (hW : White W) (hW' : White W')
    {x w w' y : Bytes} {ds' gs' : List Nat} (he' : file = x ++ (ds'.map decDigit ++ (w ++ (gs'.map decDigit ++ (w' ++ (b!"obj" ++ y))))))
    (hd : ds' ≠ [] ∧ ∀ d ∈ ds', d < 10) (hg : gs' ≠ [] ∧ ∀ d ∈ gs', d < 10) (hw : LooseGap w) (hw' : LooseGap w') (hstart : ∀ a b, x = a ++ [b] → ¬ IsDec b)
    (hpos : pre ++ (ds.map decDigit ++ (W ++ (gs.map decDigit ++ W'))) = x ++ (ds'.map decDigit ++ (w ++ (gs'.map decDigit ++ w')))) :
    x = pre ∧ ds' = ds ∧ gs' = gs := by
  rw [looseGap_iff] at hw hw'
  have hD := digits_map hm.number.1 hm.number.2
  have hG := digits_map hm.generation.1 hm.generation.2
  have hd' := digits_map hd.1 hd.2
  have hg' := digits_map hg.1 hg.2
  by_cases hlt : x.length < pre.length
  · exfalso
    refine no_straddle hm (x := x) (m := ds'.map decDigit ++ (w ++ (gs'.map decDigit ++ (w' ++ b!"obj")))) (y := y) (by rw [he']; simp) ⟨_, _, _, _, rfl, hd', hw, hg', hw'⟩ hlt ?_
    have := congrArg List.length hpos
    simp only [List.length_append, List.length_cons, List.length_nil] at this ⊢
    omega
  · obtain ⟨z, rfl⟩ : ∃ z, x = pre ++ z := by
      rcases List.append_eq_append_iff.1 hpos with ⟨z, e1, -⟩ | ⟨z, e1, -⟩
      · exact ⟨z, e1⟩
      · cases z with
        | nil => exact ⟨[], by rw [e1]; simp⟩
        | cons _ _ => rw [e1] at hlt; simp at hlt
    rw [List.append_assoc] at hpos
    have e := List.append_cancel_left hpos
    have hdec37 : ¬ IsDec 37 := by unfold IsDec; decide
    have h37 : ∀ b ∈ ds.map decDigit ++ (W ++ (gs.map decDigit ++ W')), b ≠ 37 := by
      intro b hb h
      subst h
      simp only [List.mem_append] at hb
      rcases hb with hb | hb | hb | hb
      · exact hdec37 (hD.2 _ hb)
      · exact absurd (hW.2 _ hb) (by decide)
      · exact hdec37 (hG.2 _ hb)
      · exact absurd (hW'.2 _ hb) (by decide)
    rw [e] at h37
    have hww := hw.white_of (fun h => h37 37 (by simp [h]) rfl)
    have hww' := hw'.white_of (fun h => h37 37 (by simp [h]) rfl)
    have e1 : (ds.map decDigit ++ (W ++ gs.map decDigit)) ++ W' = (z ++ (ds'.map decDigit ++ (w ++ gs'.map decDigit))) ++ w' := by simpa using e
    obtain ⟨e2, -⟩ := suffix_unique hW'.2 hww' (fun l q h hq => white_not_dec hq (digits_last hG (ds.map decDigit ++ W) l q (by rw [← h]; simp)))
      (fun l q h hq => white_not_dec hq (digits_last hg' (z ++ (ds'.map decDigit ++ w)) l q (by rw [← h]; simp))) e1
    have e3 : (ds.map decDigit ++ W) ++ gs.map decDigit = (z ++ (ds'.map decDigit ++ w)) ++ gs'.map decDigit := by simpa using e2
    obtain ⟨e4, eg⟩ := suffix_unique (p := IsDec) hG.2 hg'.2 (fun l q h hq => white_not_dec (white_last hW.1 hW.2 _ l q h) hq)
      (fun l q h hq => white_not_dec (white_last hw.ne hww (z ++ ds'.map decDigit) l q (by rw [← h]; simp)) hq) e3
    have e5 : ds.map decDigit ++ W = (z ++ ds'.map decDigit) ++ w := by simpa using e4
    obtain ⟨e6, -⟩ := suffix_unique hW.2 hww (fun l q h hq => white_not_dec hq (digits_last hD [] l q (by rw [← h]; simp)))
      (fun l q h hq => white_not_dec hq (digits_last hd' z l q h)) e5
    have hz : z = [] := by
      rcases List.eq_nil_or_concat z with h | ⟨z', q, h⟩
      · exact h
      · exfalso
        rw [List.concat_eq_append] at h
        subst h
        exact hstart (pre ++ z') q (by simp) (hD.2 q (by rw [e6]; simp))
    subst hz
    rw [List.nil_append] at e6
    exact ⟨by simp, digits_inj hd.2 hm.number.2 e6.symm, digits_inj hg.2 hm.generation.2 eg.symm⟩

/-! ### Comments -/

theorem noOpen_nil : NoOpen [] := by intro a c h; simp at h

theorem Spec.NoOpen.append {A B : Bytes} (hA : NoOpen A) (hB : NoOpen B) : NoOpen (A ++ B) := by
  intro a c h
  rcases List.append_eq_append_iff.1 h with ⟨z, e1, e2⟩ | ⟨z, e1, e2⟩
  · exact hB z c e2
  · cases z with
    | nil => exact hB [] c (by rw [List.nil_append] at e2 ⊢; exact e2.symm)
    | cons q z =>
      obtain ⟨rfl, rfl⟩ := List.cons.inj e2
      obtain ⟨b, hb, hb'⟩ := hA a z e1
      exact ⟨b, by simp [hb], hb'⟩

theorem noOpen_of {A : Bytes} (h : 37 ∉ A) : NoOpen A := by
  intro a c e
  exact absurd (by rw [e]; simp) h

/-! ### Text in which nothing looks like a header -/

theorem split_le {A B x Y : Bytes} (e : A ++ B = x ++ Y) (h : x.length ≤ A.length) : ∃ a, A = x ++ a ∧ Y = a ++ B := by
  rcases List.append_eq_append_iff.1 e with ⟨a, h1, h2⟩ | ⟨a, h1, h2⟩
  · rw [h1, List.length_append] at h
    obtain rfl : a = [] := List.eq_nil_of_length_eq_zero (by omega)
    exact ⟨[], by simp [h1], by simpa using h2.symm⟩
  · exact ⟨a, h1, h2⟩

theorem split_ge {A B x Y : Bytes} (e : A ++ B = x ++ Y) (h : A.length ≤ x.length) : ∃ a, x = A ++ a ∧ B = a ++ Y := split_le e.symm h

/-- What is before `obj` in a header. -/
def IsLead (m : Bytes) : Prop := ∃ d w d' w', m = d ++ (w ++ (d' ++ w')) ∧ Digits d ∧ Units w ∧ Digits d' ∧ Units w'

theorem noHeader_iff {t : Bytes} : NoHeader t ↔ ∀ a m b, t = a ++ (m ++ (b!"obj" ++ b)) → ¬ IsLead m := by
  constructor
  · rintro h a m b e ⟨d, w, d', w', rfl, h1, h2, h3, h4⟩
    obtain ⟨ds, hds⟩ := (isMatch_iff (d ++ (w ++ (d' ++ w')) ++ (b!"obj" ++ b))).1 ⟨d ++ (w ++ (d' ++ (w' ++ b!"obj"))), b, by simp, d, w, d', w', rfl, h1, h2, h3, h4⟩
    exact h a _ ds e hds
  · intro h a b ds e hm
    obtain ⟨m, r, rfl, d, w, d', w', rfl, h1, h2, h3, h4⟩ := (isMatch_iff b).2 ⟨ds, hm⟩
    exact h a (d ++ (w ++ (d' ++ w'))) r (by rw [e]; simp) ⟨d, w, d', w', rfl, h1, h2, h3, h4⟩

theorem Spec.Lacks.noHeader {t : Bytes} (h : Lacks b!"obj" t) : NoHeader t :=
  noHeader_iff.2 fun a m b e _ => h (a ++ m) b (by rw [e]; simp)

theorem IsLead.first {m : Bytes} (h : IsLead m) : ∃ b t, m = b :: t ∧ IsDec b := by
  obtain ⟨d, w, d', w', rfl, h1, -⟩ := h
  cases d with
  | nil => exact absurd rfl h1.1
  | cons b d => exact ⟨b, _, rfl, h1.2 b (by simp)⟩

/-- A byte of a header before `obj`, other than digits and white space, is in a comment. -/
theorem IsLead.inside {m a z : Bytes} {c : UInt8} (h : IsLead m) (e : m = a ++ c :: z) (hc : ¬ IsDec c) (hg : ¬ (IsWhite c ∨ c = 37)) : ¬ NoOpen a := by
  have ctr : ∀ {x y : Bytes}, a = x ++ y → (∃ u k, y = u ++ 37 :: k ∧ ∀ b ∈ k, b ≠ 10 ∧ b ≠ 13) → ¬ NoOpen a := by
    rintro x y rfl ⟨u, k, rfl, hk⟩ hno
    obtain ⟨b, hb, hb'⟩ := hno (x ++ u) k (by simp)
    rcases hb' with rfl | rfl
    · exact (hk _ hb).1 rfl
    · exact (hk _ hb).2 rfl
  obtain ⟨d, w, d', w', rfl, h1, h2, h3, h4⟩ := h
  by_cases k1 : a.length < d.length
  · obtain ⟨q, rfl, e'⟩ := split_le e (by omega)
    cases q with
    | nil => simp at k1
    | cons q0 q => obtain ⟨rfl, -⟩ := List.cons.inj e'; exact absurd (h1.2 _ (by simp)) hc
  obtain ⟨a1, rfl, e1⟩ := split_ge e (by omega)
  by_cases k2 : a1.length < w.length
  · obtain ⟨q, rfl, e'⟩ := split_le e1 (by omega)
    cases q with
    | nil => simp at k2
    | cons q0 q => obtain ⟨rfl, -⟩ := List.cons.inj e'; exact ctr rfl (h2.inside rfl hg)
  obtain ⟨a2, rfl, e2⟩ := split_ge e1 (by omega)
  by_cases k3 : a2.length < d'.length
  · obtain ⟨q, rfl, e'⟩ := split_le e2 (by omega)
    cases q with
    | nil => simp at k3
    | cons q0 q => obtain ⟨rfl, -⟩ := List.cons.inj e'; exact absurd (h3.2 _ (by simp)) hc
  obtain ⟨a3, rfl, e3⟩ := split_ge e2 (by omega)
  exact ctr (x := d ++ (w ++ d')) (y := a3) (by simp) (h4.inside e3 hg)

theorem noOpen_right {A B : Bytes} (h : NoOpen (A ++ B)) : NoOpen B := fun a c e => h (A ++ a) c (by rw [e]; simp)

/-- No header runs across a byte that is neither a digit nor white space, where no comment is open. -/
theorem IsLead.across {A B x m Z : Bytes} {c : UInt8} (hm : IsLead m) (hA : NoOpen A) (hc : ¬ IsDec c) (hg : ¬ (IsWhite c ∨ c = 37)) (e : A ++ c :: B = x ++ (m ++ Z)) (h1 : x.length ≤ A.length) :
    x.length + m.length ≤ A.length := by
  obtain ⟨a, rfl, e'⟩ := split_le e h1
  rw [List.length_append]
  by_cases h2 : a.length < m.length
  · exfalso
    obtain ⟨q, rfl, e2⟩ := split_le e' (by omega)
    cases q with
    | nil => simp at h2
    | cons q0 q =>
      obtain ⟨rfl, -⟩ := List.cons.inj e2
      exact hm.inside rfl hc hg (noOpen_right hA)
  · omega

theorem IsLead.skip {c : UInt8} {B x m Z : Bytes} (hm : IsLead m) (hc : ¬ IsDec c) (e : c :: B = x ++ (m ++ Z)) : ∃ x', x = c :: x' ∧ B = x' ++ (m ++ Z) := by
  cases x with
  | nil =>
    obtain ⟨b, t, rfl, hb⟩ := hm.first
    obtain ⟨rfl, -⟩ := List.cons.inj e
    exact absurd hb hc
  | cons q x => obtain ⟨rfl, h⟩ := List.cons.inj e; exact ⟨x, rfl, h⟩

theorem IsLead.skips : ∀ {A B x m Z : Bytes}, IsLead m → (∀ c ∈ A, ¬ IsDec c) → A ++ B = x ++ (m ++ Z) → ∃ x', x = A ++ x' ∧ B = x' ++ (m ++ Z)
  | [], _, x, _, _, _, _, e => ⟨x, rfl, e⟩
  | c :: A, B, x, m, Z, hm, hA, e => by
    obtain ⟨x1, rfl, e1⟩ := hm.skip (hA c (by simp)) e
    obtain ⟨x2, rfl, e2⟩ := hm.skips (fun c hc => hA c (by simp [hc])) e1
    exact ⟨x2, rfl, e2⟩

/-- Text in two parts with a byte between them that no header runs across. -/
theorem noHeader_across {A B : Bytes} {c : UInt8} (hA : NoHeader A) (ho : NoOpen A) (hc : ¬ IsDec c) (hg : ¬ (IsWhite c ∨ c = 37)) (hw : c ∉ b!"obj") (hB : NoHeader B) : NoHeader (A ++ c :: B) := by
  rw [noHeader_iff] at *
  intro x m y e hm
  by_cases h : x.length ≤ A.length
  · have h1 := hm.across ho hc hg e h
    obtain ⟨a, e1, e2⟩ := split_le (A := A) (x := x ++ m) (Y := b!"obj" ++ y) (by rw [e]; simp) (by simpa using h1)
    by_cases h2 : a.length < 3
    · obtain ⟨q, e3, e4⟩ := split_ge e2.symm (by simp; omega)
      cases q with
      | nil => rw [List.append_nil] at e3; rw [← e3] at h2; simp at h2
      | cons q0 q =>
        obtain ⟨rfl, -⟩ := List.cons.inj e4
        exact hw (by rw [e3]; simp)
    · obtain ⟨q, rfl, e4⟩ := split_le e2.symm (by simp; omega)
      exact hA x m q (by rw [e1]; simp) hm
  · obtain ⟨a, rfl, e1⟩ := split_ge e (by omega)
    obtain ⟨x', -, e2⟩ := hm.skip hc e1
    exact hB x' m y e2 hm

theorem noHeader_cons {c : UInt8} {B : Bytes} (hc : ¬ IsDec c) (hB : NoHeader B) : NoHeader (c :: B) := by
  rw [noHeader_iff] at *
  intro x m y e hm
  obtain ⟨x', -, e2⟩ := hm.skip hc e
  exact hB x' m y e2 hm

theorem noHeader_snoc {c : UInt8} {A : Bytes} (hc : c ≠ 106) (hA : NoHeader A) : NoHeader (A ++ [c]) := by
  rw [noHeader_iff] at *
  intro x m y e hm
  rcases List.eq_nil_or_concat y with rfl | ⟨y, q, rfl⟩
  · have e : A ++ [c] = (x ++ (m ++ b!"ob")) ++ [106] := by rw [e]; simp
    have := (List.append_inj' e rfl).2
    simp at this
    exact hc this
  · have e : A ++ [c] = (x ++ (m ++ (b!"obj" ++ y))) ++ [q] := by rw [e]; simp
    exact hA x m y (List.append_inj' e rfl).1 hm

/-- does nothing look like a header? -/
def noHeaderB : Bytes → Bool
  | [] => true
  | b :: t => (objRe (b :: t)).isEmpty && noHeaderB t

theorem noHeader_dec : ∀ {t : Bytes}, noHeaderB t = true → NoHeader t
  | [], _ => Lacks.noHeader (by intro a b e; have := congrArg List.length e; simp at this)
  | b :: t, h => by
    rw [noHeaderB, Bool.and_eq_true] at h
    have ih := noHeader_iff.1 (noHeader_dec h.2)
    refine noHeader_iff.2 fun x m y e hm => ?_
    cases x with
    | nil =>
      obtain ⟨d, w, d', w', rfl, h1, h2, h3, h4⟩ := hm
      have : y ∈ objRe (b :: t) := (mem_objRe _ _).2 ⟨_, by rw [e]; simp, d, w, d', w', rfl, h1, h2, h3, h4⟩
      rw [List.isEmpty_iff.1 h.1] at this
      cases this
    | cons q x =>
      obtain ⟨-, e'⟩ := List.cons.inj e
      exact ih x m y e' hm

theorem Spec.Break.noOpen {u : Bytes} (h : Break u) : NoOpen u :=
  noOpen_of fun hm => absurd (h.1 _ hm) (by decide)

theorem Spec.Break.ne {u : Bytes} (h : Break u) : u ≠ [] := by
  rintro rfl
  rcases h.2 with h | h <;> cases h

theorem Spec.Break.between {u : Bytes} (h : Break u) : Between u := by
  refine ⟨?_, ⟨[], u, rfl, h⟩, ?_⟩
  · cases u with
    | nil => exact absurd rfl h.ne
    | cons b t => exact ⟨b, t, rfl, h.1 b (by simp)⟩
  · exact lacks_of fun hm => absurd (h.1 _ hm) (by decide)

theorem Spec.Between.ne {u : Bytes} (h : Between u) : u ≠ [] := by
  obtain ⟨b, t, rfl, -⟩ := h.first
  simp

theorem Spec.Between.white_last {u : Bytes} (h : Between u) (a : Bytes) : ∀ l x, a ++ u = l ++ [x] → IsWhite x := by
  obtain ⟨v, c, rfl, hc⟩ := h.last
  intro l x e
  rw [← List.append_assoc] at e
  exact Pdf.white_last hc.ne hc.1 _ l x e

theorem Spec.Between.noOpen {u : Bytes} (h : Between u) : NoOpen u := by
  obtain ⟨v, c, rfl, hc⟩ := h.last
  intro a d e
  rcases List.append_eq_append_iff.1 e with ⟨z, e1, e2⟩ | ⟨z, e1, e2⟩
  · exact absurd (hc.1 37 (by rw [e2]; simp)) (by decide)
  · cases z with
    | nil => exact absurd (hc.1 37 (by rw [List.nil_append] at e2; rw [← e2]; simp)) (by decide)
    | cons q z =>
      obtain ⟨-, rfl⟩ := List.cons.inj e2
      rcases hc.2 with h | h
      · exact ⟨10, by simp [h], .inl rfl⟩
      · exact ⟨13, by simp [h], .inr rfl⟩

/-! ### The text of an object -/

/-- The parts of the text of an object. -/
structure Frame (o : IndObj) (T : Bytes) (ds gs : List Nat) (W W' body u : Bytes) : Prop where
  text : T = ds.map decDigit ++ (W ++ (gs.map decDigit ++ (W' ++ (b!"obj" ++ (body ++ (b!"endobj" ++ u))))))
  number : o.number = Spec.decVal ds ∧ Spec.decVal ds < 2 ^ 63 ∧ ds ≠ [] ∧ ∀ d ∈ ds, d < 10
  generation : o.generation = Spec.decVal gs ∧ Spec.decVal gs < 2 ^ 63 ∧ gs ≠ [] ∧ ∀ d ∈ gs, d < 10
  white : White W
  white' : White W'
  noHeader : NoHeader body
  noOpen : NoOpen body
  stops : ∀ r, Stops (body ++ r)
  ne : body ≠ []
  brk : Between u

theorem stops_append {a r : Bytes} (h : Stops a) (hne : a ≠ []) : Stops (a ++ r) := by
  intro b u hb
  cases a with
  | nil => exact absurd rfl hne
  | cons c z =>
    obtain ⟨rfl, -⟩ := List.cons.inj hb
    exact h _ _ rfl

theorem Spec.RawText.frame {o : IndObj} {es : List Err} {T : Bytes} (h : RawText o es T) : ∃ ds gs W W' body u, Frame o T ds gs W W' body u := by
  cases h with
  | @value n g h w t w' u o es hh h1 h2 h3 h4 h5 h6 h7 h8 =>
    obtain @⟨ds, gs, W, W', a1, a2, a3, a4, a5, a6, a7, a8⟩ := hh
    refine ⟨ds, gs, W, W', w ++ (t ++ w'), u, ⟨by simp, ⟨rfl, a3, a2, a1⟩, ⟨rfl, a6, a5, a4⟩, a7, a8, h6, h7, fun r => ?_, by simp [h3], h8⟩⟩
    have := stops_append (r := w' ++ r) h2 (by simp [h3])
    simpa using this
  | @stream n g h w t w' eol d v y u D es hh h1 h2 h3 h4 h5 h6 h7 h8 h9 h10 h11 h12 h13 =>
    obtain @⟨ds, gs, W, W', a1, a2, a3, a4, a5, a6, a7, a8⟩ := hh
    refine ⟨ds, gs, W, W', _, u, ⟨by simp, ⟨rfl, a3, a2, a1⟩, ⟨rfl, a6, a5, a4⟩, a7, a8, h11, h12, fun r => ?_, by simp [h3], h13⟩⟩
    have := stops_append (r := w' ++ (b!"stream" ++ (eol ++ (d ++ (endMark ++ y)))) ++ r) h2 (by simp [h3])
    simpa using this

theorem Spec.ObjectText.frame {rd : Reading} {o : IndObj} {es : List Err} {T : Bytes} (h : ObjectText rd o es T) : ∃ ds gs W W' body u, Frame o T ds gs W W' body u := by
  obtain ⟨a, h, hr⟩ := h
  obtain ⟨ds, gs, W, W', body, u, F⟩ := h.frame
  obtain ⟨e1, e2, -⟩ := rd.same hr
  have hn := F.number
  have hg := F.generation
  rw [e1] at hn
  rw [e2] at hg
  exact ⟨ds, gs, W, W', body, u, ⟨F.text, hn, hg, F.white, F.white', F.noHeader, F.noOpen, F.stops, F.ne, F.brk⟩⟩

/-- Nothing before the object ends in a digit or leaves a comment open. -/
structure Ready (P : Bytes) : Prop where
  start : ∀ a b, P = a ++ [b] → ¬ IsDec b
  noOpen : NoOpen P

theorem Ready.nil : Ready [] := ⟨fun a b h => by simp at h, noOpen_nil⟩

section
variable {o : IndObj} {T : Bytes} {ds gs : List Nat} {W W' body u : Bytes} (F : Frame o T ds gs W W' body u)
include F

theorem Frame.digits : Digits (ds.map decDigit) ∧ Digits (gs.map decDigit) :=
  ⟨digits_map F.number.2.2.1 F.number.2.2.2, digits_map F.generation.2.2.1 F.generation.2.2.2⟩

theorem Frame.noO : (111 : UInt8) ∉ ds.map decDigit ++ (W ++ (gs.map decDigit ++ W')) ∧ (37 : UInt8) ∉ ds.map decDigit ++ (W ++ (gs.map decDigit ++ W')) := by
  obtain ⟨h1, h2⟩ := F.digits
  have key : ∀ c : UInt8, ¬ IsDec c → ¬ IsWhite c → c ∉ ds.map decDigit ++ (W ++ (gs.map decDigit ++ W')) := by
    intro c hc hw hm
    simp only [List.mem_append] at hm
    rcases hm with hm | hm | hm | hm
    · exact hc (h1.2 _ hm)
    · exact hw (F.white.2 _ hm)
    · exact hc (h2.2 _ hm)
    · exact hw (F.white'.2 _ hm)
  exact ⟨key _ (by unfold IsDec; decide) (by decide), key _ (by unfold IsDec; decide) (by decide)⟩

theorem Frame.marker {P : Bytes} (hP : Ready P) (R : Bytes) : Marker (P ++ (T ++ R)) P ds gs where
  text := ⟨W, W', body ++ (b!"endobj" ++ (u ++ R)), by rw [F.text]; simp, F.white, F.white', F.stops _⟩
  number := F.number.2.2
  generation := F.generation.2.2
  start := hP.start
  comment := hP.noOpen

theorem Frame.ready {P : Bytes} (hP : Ready P) : Ready (P ++ T) := by
  have e : T = (ds.map decDigit ++ (W ++ (gs.map decDigit ++ (W' ++ (b!"obj" ++ (body ++ b!"endobj")))))) ++ u := by rw [F.text]; simp
  constructor
  · intro a b h
    rw [e, ← List.append_assoc] at h
    exact white_not_dec (F.brk.white_last _ a b h)
  · have e' : T = (ds.map decDigit ++ (W ++ (gs.map decDigit ++ W'))) ++ (b!"obj" ++ (body ++ (b!"endobj" ++ u))) := by rw [F.text]; simp
    rw [e']
    exact hP.noOpen.append ((noOpen_of F.noO.2).append ((noOpen_of (by decide)).append (F.noOpen.append ((noOpen_of (by decide)).append F.brk.noOpen))))

/-- The word `obj` of a header is that of the object, or after it. -/
theorem Frame.occ {P R x m z y : Bytes} (hP : Ready P) (hm : IsLead m) (h : T ++ R = z ++ (b!"obj" ++ y)) (he : P ++ z = x ++ m) :
    z = ds.map decDigit ++ (W ++ (gs.map decDigit ++ W')) ∨ ∃ z', z = T ++ z' ∧ R = z' ++ (b!"obj" ++ y) := by
  have hO := F.noO
  have hT := F.text
  obtain ⟨H, hH⟩ : ∃ H, H = ds.map decDigit ++ (W ++ (gs.map decDigit ++ W')) := ⟨_, rfl⟩
  rw [← hH] at hO ⊢
  have hT : T = H ++ (b!"obj" ++ (body ++ (b!"endobj" ++ u))) := by rw [hT, hH]; simp
  have e : T ++ R = H ++ (b!"obj" ++ (body ++ (b!"endobj" ++ (u ++ R)))) := by rw [hT]; simp
  rw [e] at h
  obtain ⟨x1, rfl, h1⟩ := occ_right (lacks_of hO.1) (by rintro b t ⟨⟩; decide) h
  cases x1 with
  | nil => left; rw [List.append_nil]
  | cons c x1 =>
    right
    obtain ⟨rfl, -⟩ := List.cons.inj h1
    have hno : NoOpen (P ++ H) := hP.noOpen.append (noOpen_of hO.2)
    have he1 : (P ++ H) ++ 111 :: x1 = x ++ (m ++ []) := by rw [List.append_nil, ← he]; simp
    have hx : ¬ x.length ≤ (P ++ H).length := by
      intro hle
      have := hm.across hno (by unfold IsDec; decide) (by decide) he1 hle
      have := congrArg List.length he1
      simp at this
      simp at *
      omega
    obtain ⟨x2, rfl, e2⟩ := split_ge he1 (by omega)
    have e3 : (111 : UInt8) :: (b!"bj" ++ (body ++ (b!"endobj" ++ (u ++ R)))) = x2 ++ (m ++ (b!"obj" ++ y)) := by
      have : (111 : UInt8) :: (b!"bj" ++ (body ++ (b!"endobj" ++ (u ++ R)))) = (111 :: x1) ++ (b!"obj" ++ y) := h1
      rw [this, e2]; simp
    obtain ⟨x3, rfl, e4⟩ := hm.skips (A := b!"obj") (by unfold IsDec; decide) e3
    have hz : b!"bj" ++ (x3 ++ m) = x1 := by simpa using e2.symm
    subst hz
    have hno2 : NoOpen body := F.noOpen
    have e4 : body ++ 101 :: (b!"ndobj" ++ (u ++ R)) = x3 ++ (m ++ (b!"obj" ++ y)) := e4
    have hx3 : ¬ x3.length ≤ body.length := by
      intro hle
      have h5 := hm.across hno2 (by unfold IsDec; decide) (by decide) e4 hle
      obtain ⟨a, e5, e6⟩ := split_le (A := body) (x := x3 ++ m) (Y := b!"obj" ++ y) (by rw [e4]; simp) (by simpa using h5)
      by_cases h6 : a.length < 3
      · obtain ⟨q, e7, e8⟩ := split_ge e6.symm (by simp; omega)
        cases q with
        | nil => rw [List.append_nil] at e7; rw [← e7] at h6; simp at h6
        | cons q0 q =>
          obtain ⟨rfl, -⟩ := List.cons.inj e8
          have : (101 : UInt8) ∈ b!"obj" := by rw [e7]; simp
          exact absurd this (by decide)
      · obtain ⟨q, rfl, -⟩ := split_le e6.symm (by simp; omega)
        exact noHeader_iff.1 F.noHeader x3 m q (by rw [e5]; simp) hm
    obtain ⟨x4, rfl, e5⟩ := split_ge e4 (by omega)
    obtain ⟨x5, rfl, e6⟩ := hm.skips (A := b!"endobj") (B := u ++ R) (by unfold IsDec; decide) e5
    have e7 : u ++ R = (x5 ++ m) ++ (b!"obj" ++ y) := by rw [e6]; simp
    obtain ⟨x6, e8, e9⟩ := occ_after F.brk.word F.brk.ne (by
        intro a c hc hm
        have := F.brk.white_last [] a c hc
        simp only [List.mem_cons, List.not_mem_nil, or_false] at hm
        rcases hm with rfl | rfl | rfl <;> exact absurd this (by decide)) (by simp) e7
    refine ⟨x6, ?_, e9⟩
    rw [hT]
    simp only [List.append_assoc, List.cons_append, List.nil_append, e8]

end

/-- Every marker of a file made up of objects is that of one of the objects. -/
theorem loose_place {rd : Reading} {Q : Bytes} (hQ : Lacks b!"obj" Q) : ∀ {ps : List Part}, (∀ p ∈ ps, ObjectText rd p.obj p.notes p.text) → ∀ {P x w w' y : Bytes} {ds gs : List Nat}, Ready P →
    ds ≠ [] ∧ (∀ d ∈ ds, d < 10) → gs ≠ [] ∧ (∀ d ∈ gs, d < 10) → LooseGap w → LooseGap w' → (∀ a b, x = a ++ [b] → ¬ IsDec b) →
    ∀ {z : Bytes}, joined ps ++ Q = z ++ (b!"obj" ++ y) → P ++ z = x ++ (ds.map decDigit ++ (w ++ (gs.map decDigit ++ w'))) →
    ∃ ps1 p ps2, ps = ps1 ++ p :: ps2 ∧ x = P ++ joined ps1 ∧ (Spec.decVal ds : Int) = p.obj.number := by
  intro ps
  induction ps with
  | nil =>
    intro _ P x w w' y ds gs _ _ _ _ _ _ z h _
    exact absurd h (hQ _ _)
  | cons p ps ih =>
    intro hall P x w w' y ds gs hP hd hg hw hw' hx z h he
    obtain ⟨ds0, gs0, W, W', body, u, F⟩ := (hall p (by simp)).frame
    have h : p.text ++ (joined ps ++ Q) = z ++ (b!"obj" ++ y) := by rw [← h]; simp [joined]
    have hfile : P ++ (p.text ++ (joined ps ++ Q)) = x ++ (ds.map decDigit ++ (w ++ (gs.map decDigit ++ (w' ++ (b!"obj" ++ y))))) := by
      rw [h, ← List.append_assoc, he]; simp
    have hlead : IsLead (ds.map decDigit ++ (w ++ (gs.map decDigit ++ w'))) :=
      ⟨_, _, _, _, rfl, digits_map hd.1 hd.2, (looseGap_iff _).1 hw, digits_map hg.1 hg.2, (looseGap_iff _).1 hw'⟩
    rcases F.occ hP hlead h he with hz | ⟨z', hz, h'⟩
    · obtain ⟨e1, e2, -⟩ := marker_unique (F.marker hP (joined ps ++ Q)) (W := W) (W' := W') (r := body ++ (b!"endobj" ++ (u ++ (joined ps ++ Q)))) (by rw [F.text]; simp) F.white F.white'
        hfile hd hg hw hw' hx (by rw [← hz]; exact he)
      exact ⟨[], p, ps, rfl, by rw [e1]; simp [joined], by rw [e2, F.number.1]⟩
    · obtain ⟨ps1, p', ps2, e1, e2, e3⟩ := ih (fun q hq => hall q (by simp [hq])) (F.ready hP) hd hg hw hw' hx h' (by rw [← he, hz]; simp)
      exact ⟨p :: ps1, p', ps2, by rw [e1]; rfl, by rw [e2]; simp [joined], e3⟩

end Pdf
