import Verif.Lemmas.Fraction
import Verif.Lemmas.Digits
import Mathlib.Algebra.Order.Field.Power
/-!
What numbers with one fraction digit print as.
-/

namespace Pdf
open Pdf.Spec

theorem den_cast (q : Rat) (h : 0 ≤ q) : (q.num.toNat : Rat) = q * q.den := by
  have h0 : 0 ≤ q.num := Rat.num_nonneg.2 h
  have : ((q.num.toNat : Nat) : Rat) = (q.num : Rat) := by rw [← Int.cast_natCast, Int.toNat_of_nonneg h0]
  rw [this]
  exact (Rat.mul_den_eq_num q).symm

theorem decimalPoint_eq {q : Rat} {L : Nat} (h0 : 0 < q) (h1 : (10 : Rat) ^ ((L : Int) - 1) ≤ q) (h2 : q < 10 ^ (L : Int)) : decimalPoint q = L := by
  have hn := den_cast q h0.le
  have hd : (0 : Rat) < q.den := by exact_mod_cast q.den_pos
  have hnpos : 0 < q.num.toNat := by
    have : (0 : Rat) < (q.num.toNat : Rat) := by rw [hn]; positivity
    exact_mod_cast this
  obtain ⟨ds, e1, -, -, -, a1, a2⟩ := natDigits_spec q.num.toNat
  obtain ⟨es, e2, -, -, -, b1, b2⟩ := natDigits_spec q.den
  have a2 := a2 hnpos
  have b2 := b2 q.den_pos
  have lds : 0 < ds.length := by
    cases ds with
    | nil => exact absurd a1 (by simp only [List.length_nil, pow_zero]; omega)
    | cons => simp
  have les : 0 < es.length := by
    cases es with
    | nil => exact absurd b1 (by have := q.den_pos; simp only [List.length_nil, pow_zero]; omega)
    | cons => simp
  have a1r : (q.num.toNat : Rat) < 10 ^ (ds.length : Int) := by rw [zpow_natCast]; exact_mod_cast a1
  have a2r : (10 : Rat) ^ ((ds.length : Int) - 1) ≤ q.num.toNat := by
    rw [show (ds.length : Int) - 1 = ((ds.length - 1 : Nat) : Int) by omega, zpow_natCast]; exact_mod_cast a2
  have b1r : (q.den : Rat) < 10 ^ (es.length : Int) := by rw [zpow_natCast]; exact_mod_cast b1
  have b2r : (10 : Rat) ^ ((es.length : Int) - 1) ≤ q.den := by
    rw [show (es.length : Int) - 1 = ((es.length - 1 : Nat) : Int) by omega, zpow_natCast]; exact_mod_cast b2
  have hl1 : (natDigits q.num.toNat).length = ds.length := by rw [e1]; simp
  have hl2 : (natDigits q.den).length = es.length := by rw [e2]; simp
  have ten : (1 : Rat) < 10 := by norm_num
  -- the two bounds on the quotient
  have up : q < 10 ^ ((ds.length : Int) - es.length + 1) := by
    have : q * q.den < 10 ^ ((ds.length : Int) - es.length + 1) * q.den := by
      rw [← hn]
      calc (q.num.toNat : Rat) < 10 ^ (ds.length : Int) := a1r
        _ = 10 ^ ((ds.length : Int) - es.length + 1) * 10 ^ ((es.length : Int) - 1) := by rw [← zpow_add₀ (by norm_num)]; congr 1; ring
        _ ≤ _ := mul_le_mul_of_nonneg_left b2r (by positivity)
    exact lt_of_mul_lt_mul_right this hd.le
  have lo : 10 ^ ((ds.length : Int) - es.length - 1) < q := by
    have : 10 ^ ((ds.length : Int) - es.length - 1) * q.den < q * q.den := by
      rw [← hn]
      calc 10 ^ ((ds.length : Int) - es.length - 1) * (q.den : Rat) < 10 ^ ((ds.length : Int) - es.length - 1) * 10 ^ (es.length : Int) := mul_lt_mul_of_pos_left b1r (by positivity)
        _ = 10 ^ ((ds.length : Int) - 1) := by rw [← zpow_add₀ (by norm_num)]; congr 1; ring
        _ ≤ _ := a2r
    exact lt_of_mul_lt_mul_right this hd.le
  have c1 : (L : Int) - 1 < ds.length - es.length + 1 := (zpow_lt_zpow_iff_right₀ ten).1 (lt_of_le_of_lt h1 up)
  have c2 : (ds.length : Int) - es.length - 1 < L := (zpow_lt_zpow_iff_right₀ ten).1 (lt_trans lo h2)
  have ge : (if 0 ≤ (ds.length : Int) - es.length then q.den * 10 ^ ((ds.length : Int) - es.length).toNat ≤ q.num.toNat else q.den ≤ q.num.toNat * 10 ^ (-((ds.length : Int) - es.length)).toNat) ↔
      (10 : Rat) ^ ((ds.length : Int) - es.length) ≤ q := by
    have key : (10 : Rat) ^ ((ds.length : Int) - es.length) ≤ q ↔ 10 ^ ((ds.length : Int) - es.length) * (q.den : Rat) ≤ q.num.toNat := by
      rw [hn]; exact (mul_le_mul_iff_left₀ hd).symm
    rw [key]
    split
    · rename_i hc
      obtain ⟨t, ht⟩ := Int.eq_ofNat_of_zero_le hc
      rw [ht, zpow_natCast, Int.toNat_natCast, mul_comm]
      exact_mod_cast Iff.rfl
    · rename_i hc
      obtain ⟨t, ht⟩ := Int.eq_ofNat_of_zero_le (show 0 ≤ -((ds.length : Int) - es.length) by omega)
      rw [ht, Int.toNat_natCast, show (ds.length : Int) - es.length = -(t : Int) by omega, zpow_neg, zpow_natCast, inv_mul_le_iff₀ (by positivity), mul_comm]
      exact_mod_cast Iff.rfl
  rw [decimalPoint, hl1, hl2]
  by_cases hg : (10 : Rat) ^ ((ds.length : Int) - es.length) ≤ q
  · rw [if_pos (ge.2 hg)]
    have c3 : (ds.length : Int) - es.length < L := (zpow_lt_zpow_iff_right₀ ten).1 (lt_of_le_of_lt hg h2)
    omega
  · rw [if_neg (fun h => hg (ge.1 h))]
    have c3 : (L : Int) - 1 < ds.length - es.length := (zpow_lt_zpow_iff_right₀ ten).1 (lt_of_le_of_lt h1 (not_le.1 hg))
    omega

/-- Rounding a quotient to an integer. -/
theorem rhe_near {q : Rat} (a b : Nat) (hb : 0 < b) (hq : (a : Rat) / b = q) : |q - roundHalfEven a b| ≤ 1 / 2 := by
  have h := (rhe_spec a hb).1
  have hb' : (0 : Rat) < b := by exact_mod_cast hb
  rw [← hq]
  have e : (a : Rat) - roundHalfEven a b * b = ((a : Rat) / b - roundHalfEven a b) * b := by field_simp
  rw [e, abs_mul, abs_of_pos hb'] at h
  have : |(a : Rat) / b - roundHalfEven a b| * b ≤ 1 / 2 * b := by linarith
  exact le_of_mul_le_mul_right this hb'

theorem cast_den {q : Rat} (h0 : 0 ≤ q) : (q.num.toNat : Rat) / q.den = q := by
  have hd : (q.den : Rat) ≠ 0 := by exact_mod_cast q.den_pos.ne'
  rw [den_cast q h0]; field_simp

/-- Digits before the point are not enough for a number that is not whole. -/
theorem short_fails {n : Nat} {q : Rat} (hn : n < 1000000) (h1 : (n : Rat) + 1 / 20 < q) (h2 : q < n + 19 / 20) {k : Nat} (hk : k ≤ 7) :
    ofDecimal (scale10 q (-(k : Int))) k ≠ .fin q := by
  intro h
  have q0 : 0 ≤ q := by have : (0 : Rat) ≤ n := Nat.cast_nonneg n
                        linarith
  rw [ofDecimal, if_pos (by omega), Int.toNat_natCast] at h
  have hs : scale10 q (-(k : Int)) = roundHalfEven q.num.toNat (q.den * 10 ^ k) := by
    rw [scale10]
    split
    · have : k = 0 := by omega
      subst this; simp
    · simp
  have hp : (0 : Rat) < 10 ^ k := by positivity
  have hp7 : (10 : Rat) ^ k ≤ 10 ^ 7 := pow_le_pow_right₀ (by norm_num) hk
  have hr := rhe_near (q := q / 10 ^ k) q.num.toNat (q.den * 10 ^ k) (Nat.mul_pos q.den_pos (by positivity)) (by
    have hd : (q.den : Rat) ≠ 0 := by exact_mod_cast q.den_pos.ne'
    push_cast
    rw [den_cast q q0]; field_simp)
  rw [← hs] at hr
  generalize scale10 q (-(k : Int)) = m at hr h
  have hm : (m : Rat) * 10 ^ k ≤ 20000000 := by
    have e : (m : Rat) ≤ q / 10 ^ k + 1 / 2 := by have := (abs_le.1 hr).1; linarith
    have e2 : (m : Rat) * 10 ^ k ≤ (q / 10 ^ k + 1 / 2) * 10 ^ k := mul_le_mul_of_nonneg_right e hp.le
    have e3 : (q / 10 ^ k + 1 / 2) * 10 ^ k = q + 10 ^ k / 2 := by field_simp
    have e4 : (n : Rat) < 1000000 := by exact_mod_cast hn
    norm_num at hp7
    linarith
  have hm' : m * 10 ^ k ≤ 20000000 := by exact_mod_cast hm
  rw [roundNN_int (by omega)] at h
  have hq : ((m * 10 ^ k : Nat) : Rat) = q := by injection h
  rw [← hq] at h1 h2
  have a1 : n < m * 10 ^ k := by
    have : (n : Rat) < ((m * 10 ^ k : Nat) : Rat) := by linarith
    exact_mod_cast this
  have a2 : m * 10 ^ k < n + 1 := by
    have : ((m * 10 ^ k : Nat) : Rat) < ((n + 1 : Nat) : Rat) := by push_cast at h2 ⊢; linarith
    exact_mod_cast this
  omega

theorem shortest_tenths {n d : Nat} (h0 : 0 < n) (hn : n < 1000000) {q : Rat} (hq : Rounded (n + (d : Rat) / 10) (.fin q)) (hb : |q - (n + d / 10)| ≤ 1 / 100) (hd : 0 < d) (hd9 : d < 10) :
    ∀ (f nd : Nat), nd ≤ (natDigits n).length + 1 → (natDigits n).length + 1 ≤ nd + f → (natDigits n).length ≤ nd + 7 →
    shortestAux q ((natDigits n).length : Int) f nd = (10 * n + d, -1) := by
  have b := abs_le.1 hb
  have hd1 : (1 : Rat) ≤ d := by exact_mod_cast hd
  have hd9' : (d : Rat) ≤ 9 := by exact_mod_cast (by omega : d ≤ 9)
  have hn0 : (0 : Rat) ≤ n := Nat.cast_nonneg n
  have q0 : 0 ≤ q := by linarith
  have hs : scale10 q 1 = 10 * n + d := by
    have hr := rhe_near (q := q * 10) (q.num.toNat * 10 ^ 1) q.den q.den_pos (by
      have hd : (q.den : Rat) ≠ 0 := by exact_mod_cast q.den_pos.ne'
      push_cast
      rw [den_cast q q0]; field_simp)
    have e : scale10 q 1 = roundHalfEven (q.num.toNat * 10 ^ 1) q.den := rfl
    rw [← e] at hr
    generalize scale10 q 1 = m at hr
    have c := abs_le.1 hr
    have a1 : m < 10 * n + d + 1 := by
      have : (m : Rat) < ((10 * n + d + 1 : Nat) : Rat) := by push_cast; linarith
      exact_mod_cast this
    have a2 : 10 * n + d < m + 1 := by
      have : ((10 * n + d : Nat) : Rat) < ((m + 1 : Nat) : Rat) := by push_cast; linarith
      exact_mod_cast this
    omega
  have ho : ofDecimal (10 * n + d) (-1) = .fin q := by
    have := (roundNN_rounded (n := 10 * n + d) (d := 10) (by norm_num)).1
    have e : (((10 * n + d : Nat) : Rat)) / ((10 : Nat) : Rat) = n + (d : Rat) / 10 := by push_cast; ring
    rw [e] at this
    exact Rounded.unique this hq
  intro f
  induction f with
  | zero =>
    intro nd h1 h2 _
    obtain rfl : nd = (natDigits n).length + 1 := by omega
    rw [shortestAux]
    have e1 : (((natDigits n).length + 1 : Nat) : Int) - ((natDigits n).length : Int) = 1 := by omega
    have e2 : ((natDigits n).length : Int) - (((natDigits n).length + 1 : Nat) : Int) = -1 := by omega
    rw [e1, e2, hs]
  | succ f ih =>
    intro nd h1 h2 h3
    rw [shortestAux]
    by_cases hz : nd = (natDigits n).length + 1
    · subst hz
      have e1 : (((natDigits n).length + 1 : Nat) : Int) - ((natDigits n).length : Int) = 1 := by omega
      have e2 : ((natDigits n).length : Int) - (((natDigits n).length + 1 : Nat) : Int) = -1 := by omega
      rw [e1, e2, hs]
      rw [if_pos ho]
    · have e1 : (nd : Int) - ((natDigits n).length : Int) = -(((natDigits n).length - nd : Nat) : Int) := by omega
      have e2 : ((natDigits n).length : Int) - (nd : Int) = (((natDigits n).length - nd : Nat) : Int) := by omega
      rw [e1, e2]
      rw [if_neg (short_fails hn (by linarith) (by linarith) (by omega))]
      exact ih (nd + 1) (by omega) (by omega) (by omega)

theorem formatPos_small : ∀ d : Fin 10, 0 < d.val → (match roundQ (mkRat d 10) with | .fin b => decide (formatPos b = [48, 46, decDigit d]) | _ => false) = true := by decide +kernel

theorem tenths_near {n d : Nat} (hn : n < 1000000) (hd9 : d < 10) {q : Rat} (hq : Rounded (n + (d : Rat) / 10) (.fin q)) : |q - (n + d / 10)| ≤ 1 / 100 := by
  have hn' : (n : Rat) < 1000000 := by exact_mod_cast hn
  have hd9' : (d : Rat) ≤ 9 := by exact_mod_cast (by omega : d ≤ 9)
  have h := Rounded.near hq (by positivity) (j := 30) (by norm_num) (by norm_num; linarith)
  rw [abs_sub_comm]
  exact h.trans (by norm_num)

/-- A number with one fraction digit prints as its digits. -/
theorem formatPos_tenths {n d : Nat} (hn : n < 1000000) (hd : 0 < d) (hd9 : d < 10) {q : Rat} (hq : Rounded (n + (d : Rat) / 10) (.fin q)) : formatPos q = natDigits n ++ [46, decDigit d] := by
  have hb := tenths_near hn hd9 hq
  rcases Nat.eq_zero_or_pos n with rfl | h0
  · have h := formatPos_small ⟨d, hd9⟩ hd
    have e : roundQ (mkRat d 10) = .fin q := by
      rw [Rat.mkRat_eq_div]
      refine Rounded.unique (roundQ_rounded (by positivity)).1 ?_
      simpa using hq
    simp only [e, decide_eq_true_eq] at h
    rw [h]; rfl
  have b := abs_le.1 hb
  have hd1 : (1 : Rat) ≤ d := by exact_mod_cast hd
  have hd9' : (d : Rat) ≤ 9 := by exact_mod_cast (by omega : d ≤ 9)
  obtain ⟨hL1, hL2, hL3⟩ := natDigits_length h0
  have hL6 : (natDigits n).length ≤ 6 := by
    refine Nat.le_of_not_lt fun hc => ?_
    have : 10 ^ 6 ≤ 10 ^ ((natDigits n).length - 1) := Nat.pow_le_pow_right (by decide) (by omega)
    omega
  have r1 : (10 : Rat) ^ ((natDigits n).length - 1) ≤ n := by exact_mod_cast hL1
  have r2 : ((n + 1 : Nat) : Rat) ≤ 10 ^ (natDigits n).length := by exact_mod_cast (by omega : n + 1 ≤ 10 ^ (natDigits n).length)
  push_cast at r2
  have hn1 : (1 : Rat) ≤ n := by exact_mod_cast h0
  have hdp : decimalPoint q = ((natDigits n).length : Int) := by
    refine decimalPoint_eq (by linarith) ?_ ?_
    · rw [show ((natDigits n).length : Int) - 1 = (((natDigits n).length - 1 : Nat) : Int) by omega, zpow_natCast]; linarith
    · rw [zpow_natCast]; linarith
  have hsh := shortest_tenths h0 hn hq hb hd hd9 16 1 (by omega) (by omega) (by omega)
  have hst : stripZeros 20 (10 * n + d) (-1) = (10 * n + d, -1) := by
    rw [stripZeros, if_neg (by omega)]
  have hdig : natDigits (10 * n + d) = natDigits n ++ [decDigit d] := by
    rw [natDigits_eq, if_neg (by omega), show (10 * n + d) / 10 = n by omega, show (10 * n + d) % 10 = d by omega]
  have hlen : (natDigits (10 * n + d)).length = (natDigits n).length + 1 := by rw [hdig]; simp
  rw [formatPos, hdp]
  simp only
  rw [hsh]
  simp only
  rw [hst]
  simp only
  rw [hlen, if_neg (by omega), if_neg (by omega), if_neg (by omega), hdig]
  have : ((((natDigits n).length + 1 : Nat) : Int) + -1).toNat = (natDigits n).length := by omega
  rw [this]
  simp

/-- And so does one with a sign. -/
theorem tenths_toBytes {n d : Nat} (hn : n < 1000000) (hd : 0 < d) (hd9 : d < 10) {q : Rat} (hq : Rounded (n + (d : Rat) / 10) (.fin q)) :
    (F64.fin q).toBytes = natDigits n ++ [46, decDigit d] ∧ (F64.fin (-q)).toBytes = 45 :: (natDigits n ++ [46, decDigit d]) := by
  have b := abs_le.1 (tenths_near hn hd9 hq)
  have hd1 : (1 : Rat) ≤ d := by exact_mod_cast hd
  have hn0 : (0 : Rat) ≤ n := Nat.cast_nonneg n
  have q0 : 0 < q := by linarith
  constructor
  · rw [F64.toBytes, if_neg q0.ne', if_neg (not_lt.2 q0.le), formatPos_tenths hn hd hd9 hq]
  · rw [F64.toBytes, if_neg (by linarith : ¬ -q = 0) , if_pos (by linarith), neg_neg, formatPos_tenths hn hd hd9 hq]

/-- What the digits of a number with one fraction digit are read as. -/
theorem tenth_digits {n d : Nat} (hn : n < 2 ^ 53) (hd9 : d < 10) {q : Rat} (hq : Rounded (n + (d : Rat) / 10) (.fin q)) : FractionDouble (.fin (n : Rat)) [d] (.fin q) := by
  obtain ⟨v, b, l1, r1, r2⟩ := tenth_sum hn hd9
  have := Rounded.unique (tenths_rounded hn hd9 r1 r2) hq
  injection this with this
  rw [← this]; exact l1

end Pdf
