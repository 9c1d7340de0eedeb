import Verif.Lemmas.Xref
import Verif.Lemmas.XrefStream
/-!
Scanning a file for object markers.
-/

namespace Pdf
open Spec

theorem isDigit_dec (b : UInt8) : isDigit b = true ↔ IsDec b := isDigit_iff b

/-- one or more decimal digits -/
def Digits (d : Bytes) : Prop := d ≠ [] ∧ ∀ b ∈ d, IsDec b

theorem digits_map {ds : List Nat} (hne : ds ≠ []) (hd : ∀ d ∈ ds, d < 10) : Digits (ds.map decDigit) := by
  refine ⟨by simpa using hne, ?_⟩
  intro b hb
  obtain ⟨d, h1, rfl⟩ := List.mem_map.1 hb
  exact (isDigit_dec _).1 (decDigit_facts (hd d h1)).1

theorem digits_eq {d : Bytes} (h : Digits d) : ∃ ds : List Nat, d = ds.map decDigit ∧ ds ≠ [] ∧ ∀ x ∈ ds, x < 10 := by
  refine ⟨d.map fun b => b.toNat - 48, ?_, by simpa using h.1, ?_⟩
  · rw [List.map_map]
    conv => lhs; rw [← List.map_id d]
    refine List.map_congr_left fun b hb => ?_
    have := h.2 b hb
    show b = UInt8.ofNat (48 + (b.toNat - 48))
    rw [show 48 + (b.toNat - 48) = b.toNat by have := this.1; omega, UInt8.ofNat_toNat]
  · intro x hx
    obtain ⟨b, hb, rfl⟩ := List.mem_map.1 hx
    have := h.2 b hb
    have := this.2
    show b.toNat - 48 < 10
    omega

theorem mem_reDigits (s r : Bytes) : r ∈ reDigits s ↔ ∃ d, s = d ++ r ∧ Digits d := by
  induction s generalizing r with
  | nil =>
    simp only [reDigits, List.not_mem_nil, false_iff]
    rintro ⟨d, h1, h2, -⟩
    exact h2 (List.append_eq_nil_iff.1 h1.symm).1
  | cons b t ih =>
    rw [reDigits]
    split
    · rename_i hb
      rw [isDigit_dec] at hb
      rw [List.mem_append, ih]
      constructor
      · rintro (⟨d, rfl, h2, h3⟩ | h)
        · exact ⟨b :: d, rfl, by simp, by simpa using ⟨hb, h3⟩⟩
        · simp only [List.mem_singleton] at h
          subst h
          exact ⟨[b], rfl, by simp, by simpa using hb⟩
      · rintro ⟨d, h1, h2, h3⟩
        cases d with
        | nil => exact absurd rfl h2
        | cons c d =>
          obtain ⟨rfl, rfl⟩ := List.cons.inj h1
          by_cases hd : d = []
          · right; simp [hd]
          · left; exact ⟨d, rfl, hd, fun x hx => h3 x (by simp [hx])⟩
    · rename_i hb
      simp only [List.not_mem_nil, false_iff]
      rintro ⟨d, h1, h2, h3⟩
      cases d with
      | nil => exact h2 rfl
      | cons c d =>
        obtain ⟨rfl, rfl⟩ := List.cons.inj h1
        exact hb ((isDigit_dec _).2 (h3 _ (by simp)))

theorem mem_reNoEol (s r : Bytes) : r ∈ reNoEol s ↔ ∃ c, s = c ++ r ∧ ∀ b ∈ c, b ≠ 10 ∧ b ≠ 13 := by
  induction s generalizing r with
  | nil =>
    simp only [reNoEol, List.mem_singleton]
    constructor
    · rintro rfl; exact ⟨[], rfl, by simp⟩
    · rintro ⟨c, h, -⟩; exact (List.append_eq_nil_iff.1 h.symm).2
  | cons b t ih =>
    rw [reNoEol]
    split
    · rename_i hb
      rw [List.mem_singleton]
      constructor
      · rintro rfl; exact ⟨[], rfl, by simp⟩
      · rintro ⟨c, h, h2⟩
        cases c with
        | nil => exact h.symm
        | cons x c =>
          obtain ⟨rfl, rfl⟩ := List.cons.inj h
          have := h2 b (by simp)
          rcases hb with hb | hb
          · exact absurd hb this.2
          · exact absurd hb this.1
    · rename_i hb
      rw [List.mem_append, ih, List.mem_singleton]
      have hb' : b ≠ 10 ∧ b ≠ 13 := ⟨fun h => hb (.inr h), fun h => hb (.inl h)⟩
      constructor
      · rintro (⟨c, rfl, h⟩ | rfl)
        · exact ⟨b :: c, rfl, by simpa using ⟨hb', h⟩⟩
        · exact ⟨[], rfl, by simp⟩
      · rintro ⟨c, h, h2⟩
        cases c with
        | nil => exact .inr h.symm
        | cons x c =>
          obtain ⟨rfl, rfl⟩ := List.cons.inj h
          exact .inl ⟨c, rfl, fun y hy => h2 y (by simp [hy])⟩

/-- one unit of a gap -/
inductive GapUnit : Bytes → Prop
  | white {b} : IsWhite b → GapUnit [b]
  | comment {c} : (∀ b ∈ c, b ≠ 10 ∧ b ≠ 13) → GapUnit (37 :: c)

theorem GapUnit.ne {u : Bytes} (h : GapUnit u) : u ≠ [] := by cases h <;> simp

theorem mem_reGapUnit (s r : Bytes) : r ∈ reGapUnit s ↔ ∃ u, s = u ++ r ∧ GapUnit u := by
  cases s with
  | nil =>
    simp only [reGapUnit, List.not_mem_nil, false_iff]
    rintro ⟨u, h1, h2⟩
    exact h2.ne (List.append_eq_nil_iff.1 h1.symm).1
  | cons b t =>
    rw [reGapUnit]
    split
    · rename_i hb
      rw [isWs_iff] at hb
      rw [List.mem_singleton]
      constructor
      · rintro rfl; exact ⟨[b], rfl, .white hb⟩
      · rintro ⟨u, h1, h2⟩
        cases h2 with
        | white _ => exact (List.cons.inj h1).2.symm
        | comment _ =>
          obtain ⟨rfl, -⟩ := List.cons.inj h1
          exact absurd hb (by decide)
    · rename_i hb
      rw [isWs_iff] at hb
      split
      · rename_i hc
        rw [mem_reNoEol]
        constructor
        · rintro ⟨c, rfl, h⟩; exact ⟨b :: c, rfl, hc ▸ .comment h⟩
        · rintro ⟨u, h1, h2⟩
          cases h2 with
          | white hw => obtain ⟨rfl, -⟩ := List.cons.inj h1; exact absurd hw hb
          | comment h => exact ⟨_, (List.cons.inj h1).2, h⟩
      · rename_i hc
        simp only [List.not_mem_nil, false_iff]
        rintro ⟨u, h1, h2⟩
        cases h2 with
        | white hw => obtain ⟨rfl, -⟩ := List.cons.inj h1; exact absurd hw hb
        | comment h => exact hc (List.cons.inj h1).1

/-- one or more units -/
inductive Units : Bytes → Prop
  | one {u} : GapUnit u → Units u
  | cons {u w} : GapUnit u → Units w → Units (u ++ w)

theorem Units.append {w w' : Bytes} (h : Units w) (h' : Units w') : Units (w ++ w') := by
  induction h with
  | one hu => exact .cons hu h'
  | cons hu _ ih => rw [List.append_assoc]; exact .cons hu ih

theorem looseGap_iff (w : Bytes) : LooseGap w ↔ Units w := by
  constructor
  · intro h
    induction h with
    | white h => exact .one (.white h)
    | comment h => exact .one (.comment h)
    | append _ _ h1 h2 => exact h1.append h2
  · have hu : ∀ u, GapUnit u → LooseGap u := by
      intro u h
      cases h with
      | white h => exact .white h
      | comment h => exact .comment h
    intro h
    induction h with
    | one h => exact hu _ h
    | cons h _ ih => exact .append (hu _ h) ih

theorem mem_reGap (f : Nat) : ∀ s r : Bytes, (r ∈ reGap f s → ∃ w, s = w ++ r ∧ Units w) ∧
    (∀ w, s = w ++ r → Units w → w.length ≤ f → r ∈ reGap f s) := by
  induction f with
  | zero =>
    intro s r
    refine ⟨fun h => (by cases h), ?_⟩
    intro w _ hw hl
    have : w = [] := List.eq_nil_of_length_eq_zero (by omega)
    subst this
    exfalso
    generalize hx : ([] : Bytes) = x at hw
    cases hw with
    | one h => exact h.ne hx.symm
    | cons h _ => exact h.ne (List.append_eq_nil_iff.1 hx.symm).1
  | succ f ih =>
    intro s r
    rw [reGap]
    simp only [List.mem_flatMap, List.mem_append, List.mem_singleton]
    constructor
    · rintro ⟨t, ht, h⟩
      obtain ⟨u, rfl, hu⟩ := (mem_reGapUnit s t).1 ht
      rcases h with h | rfl
      · obtain ⟨w, rfl, hw⟩ := (ih t r).1 h
        exact ⟨u ++ w, by rw [List.append_assoc], .cons hu hw⟩
      · exact ⟨u, rfl, .one hu⟩
    · intro w hs hw hl
      cases hw with
      | one hu => exact ⟨r, (mem_reGapUnit s r).2 ⟨w, hs, hu⟩, .inr rfl⟩
      | @cons u w hu hw =>
        refine ⟨w ++ r, (mem_reGapUnit s _).2 ⟨u, by rw [hs, List.append_assoc], hu⟩, .inl ?_⟩
        have hul : 1 ≤ u.length := by
          rcases Nat.eq_zero_or_pos u.length with h | h
          · exact absurd (List.eq_nil_of_length_eq_zero h) hu.ne
          · exact h
        rw [List.length_append] at hl
        exact (ih _ _).2 w rfl hw (by omega)

theorem mem_reLit (lit s r : Bytes) : r ∈ reLit lit s ↔ s = lit ++ r := by
  rw [reLit]
  split
  · rename_i h
    obtain ⟨t, rfl⟩ := List.isPrefixOf_iff_prefix.1 h
    simp
    constructor <;> exact fun h => h.symm
  · rename_i h
    simp only [List.not_mem_nil, false_iff]
    rintro rfl
    exact h (List.isPrefixOf_iff_prefix.2 ⟨r, rfl⟩)

/-- text matched by the pattern -/
def IsMatch (m : Bytes) : Prop := ∃ d w d' w', m = d ++ (w ++ (d' ++ (w' ++ b!"obj"))) ∧ Digits d ∧ Units w ∧ Digits d' ∧ Units w'

theorem mem_objRe (s r : Bytes) : r ∈ objRe s ↔ ∃ m, s = m ++ r ∧ IsMatch m := by
  rw [objRe]
  simp only [List.mem_flatMap]
  constructor
  · rintro ⟨s1, h1, s2, h2, s3, h3, s4, h4, h5⟩
    obtain ⟨d, rfl, hd⟩ := (mem_reDigits _ _).1 h1
    obtain ⟨w, rfl, hw⟩ := (mem_reGap _ _ _).1 h2
    obtain ⟨d', rfl, hd'⟩ := (mem_reDigits _ _).1 h3
    obtain ⟨w', rfl, hw'⟩ := (mem_reGap _ _ _).1 h4
    rw [mem_reLit] at h5
    exact ⟨_, by rw [h5]; simp only [List.append_assoc], d, w, d', w', rfl, hd, hw, hd', hw'⟩
  · rintro ⟨m, rfl, d, w, d', w', rfl, hd, hw, hd', hw'⟩
    refine ⟨w ++ (d' ++ (w' ++ (b!"obj" ++ r))), (mem_reDigits _ _).2 ⟨d, by simp only [List.append_assoc], hd⟩,
      d' ++ (w' ++ (b!"obj" ++ r)), (mem_reGap _ _ _).2 w rfl hw (by simp),
      w' ++ (b!"obj" ++ r), (mem_reDigits _ _).2 ⟨d', rfl, hd'⟩,
      b!"obj" ++ r, (mem_reGap _ _ _).2 w' rfl hw' (by simp), (mem_reLit _ _ _).2 rfl⟩

theorem isMatch_iff (t : Bytes) : (∃ m r, t = m ++ r ∧ IsMatch m) ↔ ∃ ds, LooseMarker ds t := by
  constructor
  · rintro ⟨m, r, rfl, d, w, d', w', rfl, hd, hw, hd', hw'⟩
    obtain ⟨ds, rfl, h1, h2⟩ := digits_eq hd
    obtain ⟨gs, rfl, h3, h4⟩ := digits_eq hd'
    exact ⟨ds, h1, h2, w, gs, w', r, by simp only [List.append_assoc], (looseGap_iff _).2 hw, h3, h4, (looseGap_iff _).2 hw'⟩
  · rintro ⟨ds, h1, h2, w, gs, w', r, rfl, hw, h3, h4, hw'⟩
    exact ⟨_, r, by simp only [List.append_assoc], _, w, _, w', rfl, digits_map h1 h2, (looseGap_iff _).1 hw, digits_map h3 h4, (looseGap_iff _).1 hw'⟩

theorem Units.head {w : Bytes} (h : Units w) : ∃ b t, w = b :: t ∧ (IsWhite b ∨ b = 37) := by
  cases h with
  | one h => cases h with
    | white h => exact ⟨_, _, rfl, .inl h⟩
    | comment h => exact ⟨_, _, rfl, .inr rfl⟩
  | cons h _ => cases h with
    | white h => exact ⟨_, _, rfl, .inl h⟩
    | comment h => exact ⟨_, _, rfl, .inr rfl⟩

theorem dec_not_gap {b : UInt8} (h : IsDec b) : ¬ (IsWhite b ∨ b = 37) := fun h' => white_noDigit h' h

theorem GapUnit.inside {u : Bytes} (h : GapUnit u) {w1 w2 : Bytes} {b : UInt8} (e : u = w1 ++ b :: w2) (hb : ¬ (IsWhite b ∨ b = 37)) :
    ∃ a c, w1 = a ++ 37 :: c ∧ ∀ x ∈ c, x ≠ 10 ∧ x ≠ 13 := by
  cases h with
  | white h =>
    cases w1 with
    | nil => obtain ⟨rfl, -⟩ := List.cons.inj e; exact absurd (.inl h) hb
    | cons x w1 => have := (List.cons.inj e).2; simp at this
  | comment h =>
    cases w1 with
    | nil => obtain ⟨rfl, -⟩ := List.cons.inj e; exact absurd (.inr rfl) hb
    | cons x w1 =>
      obtain ⟨rfl, rfl⟩ := List.cons.inj e
      exact ⟨[], w1, rfl, fun y hy => h y (by simp [hy])⟩

/-- a byte inside a gap that is neither white space nor starts a comment is in a comment -/
theorem Units.inside {w : Bytes} (h : Units w) : ∀ {w1 w2 : Bytes} {b : UInt8}, w = w1 ++ b :: w2 → ¬ (IsWhite b ∨ b = 37) →
    ∃ a c, w1 = a ++ 37 :: c ∧ ∀ x ∈ c, x ≠ 10 ∧ x ≠ 13 := by
  induction h with
  | one h => intro w1 w2 b e hb; exact h.inside e hb
  | @cons u w h _ ih =>
    intro w1 w2 b e hb
    rcases List.append_eq_append_iff.1 e with ⟨a, h1, h2⟩ | ⟨a, h1, h2⟩
    · obtain ⟨x, c, h3, h4⟩ := ih h2 hb
      exact ⟨u ++ x, c, by rw [h1, h3, List.append_assoc], h4⟩
    · cases a with
      | nil =>
        rw [List.nil_append] at h2
        obtain ⟨x, c, h3, h4⟩ := ih (w1 := []) h2.symm hb
        simp at h3
      | cons y a =>
        obtain ⟨rfl, -⟩ := List.cons.inj h2
        exact h.inside h1 hb

theorem units_then {w : Bytes} (h : Units w) : ∀ {W t z : Bytes} {g o : UInt8}, (∀ b ∈ W, IsWhite b) → IsDec g → ¬ IsWhite o → o ≠ g →
    W ++ g :: t = w ++ o :: z → False := by
  have hunit : ∀ {u W t z : Bytes} {g : UInt8}, GapUnit u → (∀ b ∈ W, IsWhite b) → IsDec g → W ++ g :: t = u ++ z →
      ∃ W', z = W' ++ g :: t ∧ ∀ b ∈ W', IsWhite b := by
    intro u W t z g hu hW hg e
    cases W with
    | nil =>
      exfalso
      cases hu with
      | white h => obtain ⟨rfl, -⟩ := List.cons.inj e; exact dec_not_gap hg (.inl h)
      | comment h => obtain ⟨rfl, -⟩ := List.cons.inj e; exact dec_not_gap hg (.inr rfl)
    | cons b W =>
      have hb := hW b (by simp)
      cases hu with
      | white h => obtain ⟨rfl, rfl⟩ := List.cons.inj e; exact ⟨W, rfl, fun x hx => hW x (by simp [hx])⟩
      | comment h => obtain ⟨rfl, -⟩ := List.cons.inj e; exact absurd hb (by decide)
  have hend : ∀ {W t z : Bytes} {g o : UInt8}, (∀ b ∈ W, IsWhite b) → ¬ IsWhite o → o ≠ g → W ++ g :: t = o :: z → False := by
    intro W t z g o hW ho hne e
    cases W with
    | nil => exact hne (List.cons.inj e).1.symm
    | cons b W => obtain ⟨rfl, -⟩ := List.cons.inj e; exact ho (hW _ (by simp))
  induction h with
  | one hu =>
    intro W t z g o hW hg ho hne e
    obtain ⟨W', h1, h2⟩ := hunit hu hW hg e
    exact hend h2 ho hne h1.symm
  | cons hu _ ih =>
    intro W t z g o hW hg ho hne e
    rw [List.append_assoc] at e
    obtain ⟨W', h1, h2⟩ := hunit hu hW hg e
    exact ih h2 hg ho hne h1.symm

theorem digits_unique : ∀ {d d' r r' : Bytes}, (∀ b ∈ d, IsDec b) → (∀ b ∈ d', IsDec b) → (∀ b t, r = b :: t → ¬ IsDec b) → (∀ b t, r' = b :: t → ¬ IsDec b) →
    d ++ r = d' ++ r' → d = d' ∧ r = r' := by
  intro d
  induction d with
  | nil =>
    intro d' r r' _ h2 h3 _ e
    cases d' with
    | nil => exact ⟨rfl, e⟩
    | cons b t => exact absurd (h2 b (by simp)) (h3 b _ e)
  | cons b d ih =>
    intro d' r r' h1 h2 h3 h4 e
    cases d' with
    | nil => exact absurd (h1 b (by simp)) (h4 b _ e.symm)
    | cons c d' =>
      obtain ⟨rfl, e'⟩ := List.cons.inj e
      obtain ⟨rfl, rfl⟩ := ih (d' := d') (r := r) (r' := r') (fun x hx => h1 x (by simp [hx])) (fun x hx => h2 x (by simp [hx])) h3 h4 e'
      exact ⟨rfl, rfl⟩

theorem Units.stop {w : Bytes} (h : Units w) (z : Bytes) : ∀ b t, w ++ z = b :: t → ¬ IsDec b := by
  obtain ⟨x, u, rfl, hx⟩ := h.head
  intro b t e
  obtain ⟨rfl, -⟩ := List.cons.inj e
  exact fun hb => dec_not_gap hb hx

theorem White.stop {w : Bytes} (h : White w) (z : Bytes) : ∀ b t, w ++ z = b :: t → ¬ IsDec b := by
  obtain ⟨h1, h2⟩ := h
  cases w with
  | nil => exact absurd rfl h1
  | cons x w =>
    intro b t e
    obtain ⟨rfl, -⟩ := List.cons.inj e
    exact fun hb => dec_not_gap hb (.inl (h2 _ (by simp)))

/-- no match starts before a marker and ends inside or after it -/
theorem no_straddle {file pre x m y : Bytes} {ds gs : List Nat} (hm : Marker file pre ds gs) (hf : file = x ++ (m ++ y)) (hmatch : IsMatch m)
    (h1 : x.length < pre.length) (h2 : pre.length < x.length + m.length) : False := by
  obtain ⟨⟨W, W', r, htext, hW, hW', -⟩, ⟨n1, n2⟩, ⟨g1, g2⟩, hstart, hcomment⟩ := hm
  have hD := digits_map n1 n2
  have hG := digits_map g1 g2
  generalize ds.map decDigit = D at hD htext
  generalize gs.map decDigit = G at hG htext
  obtain ⟨d, w, d', w', rfl, hd, hw, hd', hw'⟩ := hmatch
  rw [hf] at htext
  -- pre = x ++ m1
  obtain ⟨m1, e1, e2⟩ : ∃ m1, pre = x ++ m1 ∧ d ++ (w ++ (d' ++ (w' ++ b!"obj"))) ++ y = m1 ++ (D ++ (W ++ (G ++ (W' ++ (b!"obj" ++ r))))) := by
    rcases List.append_eq_append_iff.1 htext with ⟨m1, e1, e2⟩ | ⟨m1, e1, e2⟩
    · exact ⟨m1, e1, e2⟩
    · have := congrArg List.length e1
      rw [List.length_append] at this; omega
  subst e1
  have hm1 : m1 ≠ [] := by rintro rfl; simp at h1
  have hlast : ∀ a b, m1 = a ++ [b] → ¬ IsDec b := fun a b e => hstart (x ++ a) b (by rw [e, List.append_assoc])
  have hcom : ∀ a c, m1 = a ++ 37 :: c → ∃ b ∈ c, b = 10 ∨ b = 13 := fun a c e => hcomment (x ++ a) c (by rw [e, List.append_assoc])
  rw [List.length_append] at h2
  obtain ⟨hDne, hDd⟩ := hD
  obtain ⟨D0, D', rfl⟩ : ∃ a t, D = a :: t := by
    cases D with
    | nil => exact absurd rfl hDne
    | cons a t => exact ⟨a, t, rfl⟩
  have hD0 : IsDec D0 := hDd _ (by simp)
  -- a nonempty all-digit end of m1 is impossible
  have hdig : ∀ a e, m1 = a ++ e → e ≠ [] → (∀ b ∈ e, IsDec b) → False := by
    intro a e he hne hall
    rcases List.eq_nil_or_concat e with rfl | ⟨e', b, rfl⟩
    · exact hne rfl
    · rw [List.concat_eq_append] at he hall
      exact hlast (a ++ e') b (by rw [he, List.append_assoc]) (hall b (by simp))
  -- the next byte after m1 is not in a gap
  have hgap : ∀ a w1 w2 v z, m1 = a ++ w1 → Units v → v = w1 ++ w2 → w2 ≠ [] → w2 ++ z = D0 :: (D' ++ (W ++ (G ++ (W' ++ (b!"obj" ++ r))))) → False := by
    intro a w1 w2 v z ha hv hvw hne hz
    cases w2 with
    | nil => exact hne rfl
    | cons q w2 =>
      obtain ⟨rfl, -⟩ := List.cons.inj hz
      obtain ⟨u, c, h3, h4⟩ := hv.inside hvw (dec_not_gap hD0)
      obtain ⟨b, hb, hb'⟩ := hcom (a ++ u) c (by rw [ha, h3, List.append_assoc])
      rcases hb' with hb' | hb'
      · exact (h4 b hb).1 hb'
      · exact (h4 b hb).2 hb'
  simp only [List.append_assoc] at e2
  simp only [List.cons_append] at e2
  rcases List.append_eq_append_iff.1 e2 with ⟨a1, f1, f2⟩ | ⟨a1, f1, f2⟩
  · -- m1 = d ++ a1
    subst f1
    rcases List.append_eq_append_iff.1 f2 with ⟨a2, f1, f3⟩ | ⟨a2, f1, f3⟩
    · -- a1 = w ++ a2
      subst f1
      rcases List.append_eq_append_iff.1 f3 with ⟨a3, f1, f4⟩ | ⟨a3, f1, f4⟩
      · subst f1
        rcases List.append_eq_append_iff.1 f4 with ⟨a4, f1, f5⟩ | ⟨a4, f1, f5⟩
        · subst f1
          -- in "obj"
          simp only [List.length_append, List.length_cons, List.length_nil] at h2
          match a4, f5, h2 with
          | [], f5, _ => obtain ⟨h, -⟩ := List.cons.inj f5; rw [← h] at hD0; exact absurd hD0 (by unfold IsDec; decide)
          | [_], f5, _ => obtain ⟨h, -⟩ := List.cons.inj (List.cons.inj f5).2; rw [← h] at hD0; exact absurd hD0 (by unfold IsDec; decide)
          | [_, _], f5, _ => obtain ⟨h, -⟩ := List.cons.inj (List.cons.inj (List.cons.inj f5).2).2; rw [← h] at hD0; exact absurd hD0 (by unfold IsDec; decide)
          | _ :: _ :: _ :: _, _, h2 => simp only [List.length_cons] at h2; omega
        · -- in w'
          by_cases hne : a4 = []
          · subst hne
            rw [List.nil_append] at f5
            obtain ⟨h, -⟩ := List.cons.inj f5; rw [h] at hD0; exact absurd hD0 (by unfold IsDec; decide)
          · exact hgap (d ++ (w ++ d')) a3 a4 w' _ (by simp only [List.append_assoc]) hw' f1 hne f5.symm
      · -- in d'
        by_cases hne : a3 = []
        · subst hne
          rw [List.nil_append] at f4
          exact hw'.stop _ _ _ f4.symm hD0
        · by_cases hne2 : a2 = []
          · subst hne2
            rw [List.nil_append] at f1
            subst f1
            obtain ⟨-, h⟩ := digits_unique (d := D0 :: D') hDd hd'.2 (White.stop hW _) (hw'.stop _) f4
            obtain ⟨G0, G', rfl⟩ : ∃ a t, G = a :: t := by
              cases G with
              | nil => exact absurd rfl hG.1
              | cons a t => exact ⟨a, t, rfl⟩
            have hg0 : IsDec G0 := hG.2 _ (by simp)
            exact units_then hw' hW.2 hg0 (o := 111) (by decide) (by rintro rfl; exact absurd hg0 (by unfold IsDec; decide)) h
          · exact hdig (d ++ w) a2 (by simp only [List.append_assoc]) hne2 fun b hb => hd'.2 b (by rw [f1]; simp [hb])
    · by_cases hne : a2 = []
      · subst hne
        rw [List.nil_append] at f3
        rw [List.append_nil] at f1
        subst f1
        -- m1 = d ++ w, the marker starts at d'
        obtain ⟨-, h⟩ := digits_unique (d := D0 :: D') hDd hd'.2 (White.stop hW _) (hw'.stop _) f3
        obtain ⟨G0, G', rfl⟩ : ∃ a t, G = a :: t := by
          cases G with
          | nil => exact absurd rfl hG.1
          | cons a t => exact ⟨a, t, rfl⟩
        have hg0 : IsDec G0 := hG.2 _ (by simp)
        exact units_then hw' hW.2 hg0 (o := 111) (by decide) (by rintro rfl; exact absurd hg0 (by unfold IsDec; decide)) h
      · exact hgap d a1 a2 w _ rfl hw f1 hne f3.symm
  · -- in d
    exact hdig [] m1 rfl hm1 fun b hb => hd.2 b (by rw [f1]; simp [hb])

/-! ### `FindReaderIndex` -/

theorem findRe_none {re : Bytes → List Bytes} : ∀ {s : Bytes} {i : Nat}, findRe re i s = none → ∀ a b, s = a ++ b → re b = [] := by
  intro s
  induction s with
  | nil =>
    intro i h a b e
    obtain ⟨rfl, rfl⟩ := List.append_eq_nil_iff.1 e.symm
    rw [findRe] at h
    cases hr : re [] with
    | nil => rfl
    | cons x l => rw [hr] at h; cases h
  | cons c t ih =>
    intro i h a b e
    rw [findRe] at h
    cases hr : re (c :: t) with
    | cons x l => rw [hr] at h; cases h
    | nil =>
      rw [hr] at h
      cases a with
      | nil => rw [List.nil_append] at e; rw [← e]; exact hr
      | cons c' a =>
        obtain ⟨rfl, e'⟩ := List.cons.inj e
        exact ih h a b e'

theorem findRe_some {re : Bytes → List Bytes} : ∀ {s : Bytes} {i p q : Nat}, findRe re i s = some (p, q) →
    ∃ a b rest, s = a ++ b ∧ p = i + a.length ∧ rest ∈ re b ∧ q = p + (b.length - rest.length) ∧
      ∀ a' b', s = a' ++ b' → a'.length < a.length → re b' = [] := by
  intro s
  induction s with
  | nil =>
    intro i p q h
    rw [findRe] at h
    cases hr : re [] with
    | nil => rw [hr] at h; cases h
    | cons x l =>
      rw [hr] at h
      simp only [List.head?_cons, Option.some.injEq, Prod.mk.injEq] at h
      obtain ⟨rfl, rfl⟩ := h
      exact ⟨[], [], x, rfl, rfl, by rw [hr]; simp, rfl, fun _ _ _ h => absurd h (Nat.not_lt_zero _)⟩
  | cons c t ih =>
    intro i p q h
    rw [findRe] at h
    cases hr : re (c :: t) with
    | cons x l =>
      rw [hr] at h
      simp only [List.head?_cons, Option.some.injEq, Prod.mk.injEq] at h
      obtain ⟨rfl, rfl⟩ := h
      exact ⟨[], c :: t, x, rfl, rfl, by rw [hr]; simp, rfl, fun _ _ _ h => absurd h (Nat.not_lt_zero _)⟩
    | nil =>
      rw [hr] at h
      obtain ⟨a, b, r, rfl, h2, h3, h4, h5⟩ := ih h
      refine ⟨c :: a, b, r, rfl, by rw [h2, List.length_cons]; omega, h3, h4, ?_⟩
      intro a' b' e hl
      cases a' with
      | nil => rw [List.nil_append] at e; rw [← e]; exact hr
      | cons c' a' =>
        obtain ⟨rfl, e'⟩ := List.cons.inj e
        exact h5 a' b' e' (by simpa using hl)

/-- the text does not occur -/
theorem not_infix {lit s : Bytes} (h : findRe (reLit lit) 0 s = none) (a b : Bytes) : s ≠ a ++ (lit ++ b) := by
  intro e
  have := findRe_none h _ _ e
  have hm : b ∈ reLit lit (lit ++ b) := (mem_reLit _ _ _).2 rfl
  rw [this] at hm
  cases hm

end Pdf
