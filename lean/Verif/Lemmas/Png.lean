import Verif.Lemmas.Filters
namespace Pdf
open Spec

/-! ### PNG prediction -/

theorem getD_append_left (a b : Bytes) (n : Nat) (h : n < a.length) : (a ++ b).getD n 0 = a.getD n 0 := by
  simp [List.getElem?_append_left h]

theorem getD_append_right (a b : Bytes) (n : Nat) (h : a.length ≤ n) :
    (a ++ b).getD n 0 = b.getD (n - a.length) 0 := by
  simp [List.getElem?_append_right h]

theorem paeth_eq (a b c : Nat) : paeth a b c = pngPaeth a b c := rfl

theorem unfilter_byte (x : UInt8) (p : Nat) :
    UInt8.ofNat (((UInt8.ofNat (x.toNat + 256 - p % 256)).toNat + p) % 256) = x := by
  have := x.toNat_lt
  apply UInt8.toNat_inj.1
  simp only [UInt8.toNat_ofNat']; omega

theorem unfilter_none (x : UInt8) : UInt8.ofNat ((UInt8.ofNat (x.toNat + 256 - 0 % 256)).toNat) = x := by
  have := x.toNat_lt
  apply UInt8.toNat_inj.1
  simp only [UInt8.toNat_ofNat']; omega

theorem idx_ok {d : Bytes} {i : Int} {n : Nat} (hi : i = n) (h : n < d.length) :
    idx d i = .ok (d.getD n 0).toNat := by
  subst hi
  have : ¬ ((n : Int) < 0) := by omega
  simp [idx, this, h]

/-- How the algorithm of a row is chosen. -/
def pngMethodOk (predictor : Int) (tag : UInt8) (alg : Nat) : Prop :=
  if predictor = 15 then tag.toNat = alg else predictor = 10 + alg

/-- One byte: `P` are the finished rows, `prev` the last of them. -/
theorem pngByte_filter {bpp alg w r j : Nat} {P prev cur : Bytes}
    (hbpp : bpp = 1 ∨ alg = 0 ∨ alg = 2) (halg : alg ≤ 4)
    (hP : P.length = r * w) (hcur : cur.length = w) (hj : j < w)
    (hprev : ∀ i, i < w → (prev.getD i 0) = if r = 0 then 0 else P.getD ((r - 1) * w + i) 0) :
    pngByte (P ++ cur.take j) alg w (r * w : Nat) j (pngFilterByte bpp alg prev cur j).toNat
      = .ok (cur.getD j 0) := by
  have hleft : (if (j : Int) > 0 then idx (P ++ cur.take j) ((r * w : Nat) + (j : Int) - 1) else .ok 0)
      = .ok (pngAt cur j 1) := by
    rcases Nat.eq_zero_or_pos j with rfl | h0
    · simp [pngAt]
    · rw [if_pos (by omega), idx_ok (n := r * w + (j - 1)) (by omega) (by simp; omega), pngAt, if_neg (by omega)]
      rw [getD_append_right _ _ _ (by omega), hP, Nat.add_sub_cancel_left]
      simp only [List.getD_eq_getElem?_getD]
      rw [List.getElem?_take_of_lt (by omega)]
  have hsub : r ≠ 0 → r * w = (r - 1) * w + w := by
    intro h
    obtain ⟨q, rfl⟩ : ∃ q, r = q + 1 := ⟨r - 1, by omega⟩
    simp [Nat.succ_mul]
  have hup : (if ((r * w : Nat) : Int) + j - w ≥ 0 then idx (P ++ cur.take j) ((r * w : Nat) + (j : Int) - w) else .ok 0)
      = .ok (pngAt prev j 0) := by
    simp only [pngAt, Nat.not_lt_zero, if_false, Nat.sub_zero, hprev j hj]
    by_cases h0 : r = 0
    · subst h0
      rw [if_neg (by omega)]; simp
    · rw [if_pos (by have := hsub h0; omega), if_neg h0,
        idx_ok (n := (r - 1) * w + j) (by have := hsub h0; omega) (by have := hsub h0; simp; omega)]
      rw [getD_append_left _ _ _ (by have := hsub h0; omega)]
  have hul : (if ((r * w : Nat) : Int) + j - w - 1 ≥ 0 ∧ (j : Int) > 0 then
        idx (P ++ cur.take j) ((r * w : Nat) + (j : Int) - w - 1) else .ok 0) = .ok (pngAt prev j 1) := by
    by_cases hj0 : j = 0
    · subst hj0; simp [pngAt]
    · have hp := hprev (j - 1) (by omega)
      rw [pngAt, if_neg (show ¬ j < 1 by omega), hp]
      by_cases h0 : r = 0
      · subst h0
        rw [if_pos rfl, if_neg (by omega)]; simp
      · have hs := hsub h0
        rw [if_neg h0, if_pos (by omega),
          idx_ok (n := (r - 1) * w + (j - 1)) (by omega) (by simp; omega)]
        rw [getD_append_left _ _ _ (by omega)]
  simp only [pngByte]
  rw [hleft, hup, hul]
  rcases (show alg = 0 ∨ alg = 1 ∨ alg = 2 ∨ alg = 3 ∨ alg = 4 by omega) with rfl | rfl | rfl | rfl | rfl
  · simp only [pngFilterByte, pngPredict]
    exact congrArg Res.ok (unfilter_none _)
  all_goals
    rcases hbpp with rfl | h | h
    any_goals omega
    all_goals
      simp only [pngFilterByte, pngPredict, paeth_eq]
      exact congrArg Res.ok (unfilter_byte _ _)

theorem pngCols_filter {bpp alg w r : Nat} {P prev cur : Bytes}
    (hbpp : bpp = 1 ∨ alg = 0 ∨ alg = 2) (halg : alg ≤ 4)
    (hP : P.length = r * w) (hcur : cur.length = w)
    (hprev : ∀ i, i < w → (prev.getD i 0) = if r = 0 then 0 else P.getD ((r - 1) * w + i) 0)
    (tail : Bytes) :
    ∀ k j, j + k = w →
      pngCols alg w (r * w : Nat) k j
        (((List.range' j k).map (pngFilterByte bpp alg prev cur)) ++ tail) (P ++ cur.take j) = .ok (P ++ cur) := by
  intro k
  induction k with
  | zero => intro j hj; simp only [pngCols]; rw [List.take_of_length_le (by omega)]
  | succ k ih =>
    intro j hj
    rw [List.range'_succ, List.map_cons, List.cons_append, pngCols,
      pngByte_filter hbpp halg hP hcur (by omega) hprev, Res.bind_ok]
    have e : P ++ cur.take j ++ [cur.getD j 0] = P ++ cur.take (j + 1) := by
      rw [List.append_assoc, List.take_succ_eq_append_getElem (by omega)]
      simp [List.getElem?_eq_getElem (show j < cur.length by omega)]
    rw [e]
    exact_mod_cast ih (j + 1) (by omega)

theorem pngRows_filter {bpp w : Nat} {predictor : Int}
    (rows : List (UInt8 × Nat × Bytes))
    (hrows : ∀ x ∈ rows, x.2.1 ≤ 4 ∧ (bpp = 1 ∨ x.2.1 = 0 ∨ x.2.1 = 2) ∧ x.2.2.length = w ∧
      pngMethodOk predictor x.1 x.2.1) :
    ∀ (r f : Nat) (P prev : Bytes), P.length = r * w → rows.length ≤ f →
      (∀ i, i < w → (prev.getD i 0) = if r = 0 then 0 else P.getD ((r - 1) * w + i) 0) →
      pngRows predictor w f r (pngFilter bpp prev rows) P = .ok (P ++ rows.flatMap (·.2.2)) := by
  induction rows with
  | nil => intro r f P prev _ _ _; cases f <;> simp [pngFilter, pngRows]
  | cons x rows ih =>
    intro r f P prev hP hf hprev
    obtain ⟨tag, alg, cur⟩ := x
    obtain ⟨halg, hbpp, hcur, hm⟩ := hrows _ (List.mem_cons_self)
    simp only at halg hbpp hcur hm
    obtain ⟨f, rfl⟩ : ∃ k, f = k + 1 := ⟨f - 1, by simp at hf; omega⟩
    have hmeth : (if predictor = 15 then (tag.toNat : Int) else predictor - 10) = (alg : Int) := by
      simp only [pngMethodOk] at hm
      split at hm
      · next h => rw [if_pos h, hm]
      · next h => rw [if_neg h]; omega
    have hc := pngCols_filter hbpp halg hP hcur hprev (pngFilter bpp cur rows) w 0 (by omega)
    rw [pngFilter, pngFilterRow, List.cons_append, pngRows]
    simp only [hmeth]
    rw [List.range_eq_range', hcur]
    simp only [List.take_zero, List.append_nil] at hc
    rw [show ((0 : Int)) = ((0 : Nat) : Int) from rfl, hc, Res.bind_ok]
    rw [List.drop_append_of_le_length (by simp), List.drop_of_length_le (by simp), List.nil_append]
    rw [ih (fun y hy => hrows y (List.mem_cons_of_mem _ hy)) (r + 1) f (P ++ cur) cur
      (by simp [hP, hcur, Nat.succ_mul]) (by simpa using hf) ?_]
    · simp
    · intro i hi
      rw [if_neg (by omega), Nat.add_sub_cancel, ← hP, getD_append_right _ _ _ (by omega), Nat.add_sub_cancel_left]

theorem pngByte_total (dec : Bytes) (m w dr dc : Int) (x : Nat)
    (hdr : 0 ≤ dr) (hw : 0 < w) (hd : dr + dc = dec.length) :
    ∃ b, pngByte dec m w dr dc x = .ok b := by
  have hidx : ∀ i : Int, 0 ≤ i → i < dec.length → ∃ v, idx dec i = .ok v := by
    intro i h0 h1
    exact ⟨_, idx_ok (n := i.toNat) (by omega) (by omega)⟩
  have hl : ∃ v, (if dc > 0 then idx dec (dr + dc - 1) else .ok 0) = .ok v := by
    split
    · exact hidx _ (by omega) (by omega)
    · exact ⟨_, rfl⟩
  have hu : ∃ v, (if dr + dc - w ≥ 0 then idx dec (dr + dc - w) else .ok 0) = .ok v := by
    split
    · exact hidx _ (by omega) (by omega)
    · exact ⟨_, rfl⟩
  have hul : ∃ v, (if dr + dc - w - 1 ≥ 0 ∧ dc > 0 then idx dec (dr + dc - w - 1) else .ok 0) = .ok v := by
    split
    · exact hidx _ (by omega) (by omega)
    · exact ⟨_, rfl⟩
  obtain ⟨l, hl⟩ := hl
  obtain ⟨u, hu⟩ := hu
  obtain ⟨ul, hul⟩ := hul
  simp only [pngByte, hl, hu, hul, Res.bind_ok]
  repeat' split
  all_goals exact ⟨_, rfl⟩

theorem pngCols_total (m w dr : Int) (hdr : 0 ≤ dr) (hw : 0 < w) :
    ∀ (k : Nat) (dc : Int) (rest dec : Bytes), 0 ≤ dc → dr + dc = dec.length →
      ∃ dec', pngCols m w dr k dc rest dec = .ok dec' ∧ dec'.length = dec.length + min k rest.length := by
  intro k
  induction k with
  | zero => intro dc rest dec _ _; exact ⟨dec, rfl, by simp⟩
  | succ k ih =>
    intro dc rest dec h0 hd
    cases rest with
    | nil => exact ⟨dec, rfl, by simp⟩
    | cons x rest =>
      obtain ⟨b, hb⟩ := pngByte_total dec m w dr dc x.toNat hdr hw hd
      obtain ⟨dec', h1, h2⟩ := ih (dc + 1) rest (dec ++ [b]) (by omega) (by simp; omega)
      refine ⟨dec', ?_, ?_⟩
      · rw [pngCols, hb, Res.bind_ok, h1]
      · simp at h2 ⊢; omega

theorem pngRows_total (p : Int) (w : Nat) (hw : 0 < w) :
    ∀ (f row : Nat) (data dec : Bytes), dec.length = row * w →
      ∃ d, pngRows p w f row data dec = .ok d := by
  intro f
  induction f with
  | zero => intro row data dec _; exact ⟨dec, rfl⟩
  | succ f ih =>
    intro row data dec hd
    cases data with
    | nil => exact ⟨dec, rfl⟩
    | cons tag rest =>
      rw [pngRows]
      obtain ⟨dec', h1, h2⟩ := pngCols_total (if p = 15 then (tag.toNat : Int) else p - 10) w (row * w : Nat)
        (by omega) (by omega) w 0 rest dec (by omega) (by omega)
      simp only [h1, Res.bind_ok]
      by_cases hr : w ≤ rest.length
      · exact ih (row + 1) (rest.drop w) dec' (by rw [h2, hd, Nat.min_eq_left hr, Nat.succ_mul])
      · rw [List.drop_of_length_le (by omega)]
        cases f <;> exact ⟨_, rfl⟩
end Pdf
