import Verif.Spec.Double
import Mathlib.Tactic.Linarith
import Mathlib.Tactic.Ring
import Mathlib.Tactic.FieldSimp
import Mathlib.Tactic.NormNum
import Mathlib.Algebra.Order.Ring.Abs
/-!
`roundNN` rounds to the nearest double.
-/

namespace Pdf
open Pdf.Spec

theorem rhe_spec (a : Nat) {b : Nat} (hb : 0 < b) : |(a : Rat) - roundHalfEven a b * b| ≤ b / 2 ∧ (|(a : Rat) - roundHalfEven a b * b| = b / 2 → roundHalfEven a b % 2 = 0) := by
  have h := Nat.div_add_mod a b
  have hr := Nat.mod_lt a hb
  unfold roundHalfEven
  generalize a / b = q at *
  generalize a % b = r at *
  have h' : (a : Rat) = b * q + r := by exact_mod_cast h.symm
  have hr' : (r : Rat) < b := by exact_mod_cast hr
  have hr0 : (0 : Rat) ≤ r := by positivity
  have hb' : (0 : Rat) < b := by exact_mod_cast hb
  dsimp only
  split
  · rename_i c
    have c' : 2 * (r : Rat) < b := by exact_mod_cast c
    have e : (a : Rat) - q * b = r := by rw [h']; ring
    rw [e, abs_of_nonneg hr0]
    exact ⟨by linarith, fun h => by linarith⟩
  · split
    · rename_i c
      have c' : (b : Rat) < 2 * r := by exact_mod_cast c
      have e : (a : Rat) - ((q + 1 : Nat) : Rat) * b = -(b - r) := by rw [h']; push_cast; ring
      rw [e, abs_neg, abs_of_nonneg (by linarith)]
      exact ⟨by linarith, fun h => by linarith⟩
    · rename_i c1 c2
      have c : 2 * r = b := by omega
      have c' : 2 * (r : Rat) = b := by exact_mod_cast c
      refine ⟨?_, fun _ => by omega⟩
      rcases Nat.mod_two_eq_zero_or_one q with e | e <;> rw [e]
      · rw [show (a : Rat) - ((q + 0 : Nat) : Rat) * b = r by rw [h']; push_cast; ring, abs_of_nonneg hr0]
        linarith
      · rw [show (a : Rat) - ((q + 1 : Nat) : Rat) * b = -(b - r) by rw [h']; push_cast; ring, abs_neg, abs_of_nonneg (by linarith)]
        linarith

theorem rhe_mul (a b : Nat) {c : Nat} (hc : 0 < c) : roundHalfEven (a * c) (b * c) = roundHalfEven a b := by
  unfold roundHalfEven
  rw [Nat.mul_div_mul_right _ _ hc, Nat.mul_mod_mul_right]
  dsimp only
  have e1 : 2 * (a % b * c) < b * c ↔ 2 * (a % b) < b := by
    rw [← Nat.mul_assoc]; exact Nat.mul_lt_mul_right hc
  have e2 : b * c < 2 * (a % b * c) ↔ b < 2 * (a % b) := by
    rw [← Nat.mul_assoc]; exact Nat.mul_lt_mul_right hc
  simp only [e1, e2]

theorem floorLog2_spec {n d : Nat} (hn : 0 < n) (hd : 0 < d) : (2 : Rat) ^ floorLog2 n d ≤ n / d ∧ (n : Rat) / d < 2 ^ (floorLog2 n d + 1) := by
  have hd' : (0 : Rat) < d := by exact_mod_cast hd
  have n1 : (2 : Rat) ^ (Nat.log2 n : Int) ≤ n := by
    rw [zpow_natCast]; exact_mod_cast Nat.log2_self_le hn.ne'
  have n2 : (n : Rat) < 2 ^ ((Nat.log2 n : Int) + 1) := by
    have := Nat.lt_log2_self (n := n)
    rw [show ((Nat.log2 n : Int) + 1) = ((Nat.log2 n + 1 : Nat) : Int) by push_cast; rfl, zpow_natCast]; exact_mod_cast this
  have d1 : (2 : Rat) ^ (Nat.log2 d : Int) ≤ d := by
    rw [zpow_natCast]; exact_mod_cast Nat.log2_self_le hd.ne'
  have d2 : (d : Rat) < 2 ^ ((Nat.log2 d : Int) + 1) := by
    have := Nat.lt_log2_self (n := d)
    rw [show ((Nat.log2 d : Int) + 1) = ((Nat.log2 d + 1 : Nat) : Int) by push_cast; rfl, zpow_natCast]; exact_mod_cast this
  unfold floorLog2
  dsimp only
  generalize (Nat.log2 n : Int) = a at *
  generalize (Nat.log2 d : Int) = b at *
  have two : (2 : Rat) ≠ 0 := by norm_num
  have zp : ∀ i : Int, (0 : Rat) ≤ 2 ^ i := fun i => (zpow_pos (by norm_num) i).le
  have hge : (if 0 ≤ a - b then d * 2 ^ (a - b).toNat ≤ n else d ≤ n * 2 ^ (-(a - b)).toNat) ↔ (2 : Rat) ^ (a - b) ≤ n / d := by
    rw [le_div_iff₀ hd']
    split
    · rename_i h
      obtain ⟨k, hk⟩ := Int.eq_ofNat_of_zero_le h
      rw [hk, Int.toNat_natCast, zpow_natCast, mul_comm]
      exact_mod_cast Iff.rfl
    · rename_i h
      obtain ⟨k, hk⟩ := Int.eq_ofNat_of_zero_le (a := -(a - b)) (by omega)
      rw [hk, Int.toNat_natCast, show a - b = -(k : Int) by omega, zpow_neg, zpow_natCast]
      have hp : (0 : Rat) < 2 ^ k := by positivity
      rw [inv_mul_le_iff₀ hp, mul_comm]
      exact_mod_cast Iff.rfl
  have up : (n : Rat) / d < 2 ^ (a - b + 1) := by
    rw [div_lt_iff₀ hd']
    calc (n : Rat) < 2 ^ (a + 1) := n2
      _ = 2 ^ (a - b + 1) * 2 ^ b := by rw [← zpow_add₀ two]; congr 1; omega
      _ ≤ 2 ^ (a - b + 1) * d := mul_le_mul_of_nonneg_left d1 (zp _)
  have lo : (2 : Rat) ^ (a - b - 1) ≤ n / d := by
    rw [le_div_iff₀ hd']
    calc (2 : Rat) ^ (a - b - 1) * d ≤ 2 ^ (a - b - 1) * 2 ^ (b + 1) := mul_le_mul_of_nonneg_left d2.le (zp _)
      _ = 2 ^ a := by rw [← zpow_add₀ two]; congr 1; omega
      _ ≤ n := n1
  by_cases h : (2 : Rat) ^ (a - b) ≤ n / d
  · rw [if_pos (hge.2 h)]
    exact ⟨h, up⟩
  · rw [if_neg (fun h' => h (hge.1 h'))]
    refine ⟨lo, ?_⟩
    rw [show a - b - 1 + 1 = a - b by omega]
    exact not_le.1 h

/-- Rounding to multiples of `2^k0` is rounding to the nearest double, in units of 2^-1074. -/
theorem nearest_of {q x : Rat} {M k0 : Nat} (hx : x * 2 ^ 1074 = M * 2 ^ k0) (ha : |q * 2 ^ 1074 - M * 2 ^ k0| ≤ 2 ^ k0 / 2) (hb : |q * 2 ^ 1074 - M * 2 ^ k0| = 2 ^ k0 / 2 → M % 2 = 0)
    (hM : M ≤ 2 ^ 53) (hd : k0 = 0 ∨ 2 ^ 52 * 2 ^ k0 ≤ q * 2 ^ 1074) (hk : M < 2 ^ 53 ∧ k0 ≤ 2045 ∨ k0 + 1 ≤ 2045) : Nearest q x := by
  have hc : (0 : Rat) < 2 ^ 1074 := by positivity
  generalize hC : (2 : Rat) ^ 1074 = C at *
  have scale : ∀ y, |q - y| * C = |q * C - y * C| := fun y => by rw [← sub_mul, abs_mul, abs_of_pos hc]
  have hU : (0 : Rat) < 2 ^ k0 := by positivity
  have mult : ∀ j : Nat, j ≠ M → |q * C - M * 2 ^ k0| ≤ |q * C - j * 2 ^ k0| ∧ (|q * C - M * 2 ^ k0| = |q * C - j * 2 ^ k0| → |q * C - M * 2 ^ k0| = 2 ^ k0 / 2) := by
    intro j hj
    have h1 : (2 : Rat) ^ k0 ≤ |(j : Rat) * 2 ^ k0 - M * 2 ^ k0| := by
      rw [← sub_mul, abs_mul, abs_of_pos hU]
      have : (1 : Rat) ≤ |(j : Rat) - M| := by
        have : (1 : Int) ≤ |(j : Int) - M| := Int.one_le_abs (by omega)
        exact_mod_cast this
      nlinarith
    have h2 : |(j : Rat) * 2 ^ k0 - M * 2 ^ k0| ≤ |q * C - M * 2 ^ k0| + |q * C - j * 2 ^ k0| := by
      rw [show (j : Rat) * 2 ^ k0 - M * 2 ^ k0 = (q * C - M * 2 ^ k0) - (q * C - j * 2 ^ k0) by ring]
      exact abs_sub _ _
    exact ⟨by linarith, fun h => by linarith⟩
  have main : ∀ y, IsDouble y → y ≠ x → |q * C - M * 2 ^ k0| ≤ |q * C - y * C| ∧ (|q * C - M * 2 ^ k0| = |q * C - y * C| → |q * C - M * 2 ^ k0| = 2 ^ k0 / 2) := by
    rintro y ⟨m, k, h1, -, h2⟩ hy
    rw [hC] at h2
    rw [h2]
    by_cases hkk : k0 ≤ k
    · have e : (m : Rat) * 2 ^ k = ((m * 2 ^ (k - k0) : Nat) : Rat) * 2 ^ k0 := by
        push_cast
        rw [mul_assoc, ← pow_add, Nat.sub_add_cancel hkk]
      rw [e]
      apply mult
      intro hm
      rw [← hm, ← e, ← h2] at hx
      exact hy (mul_right_cancel₀ hc.ne' hx).symm
    · have hd := hd.resolve_left (by omega)
      have lt : (m : Rat) * 2 ^ k < 2 ^ 52 * 2 ^ k0 := by
        have h3 : (m : Rat) < 2 ^ 53 := by exact_mod_cast h1
        have h4 : (2 : Rat) ^ k0 = 2 ^ (k0 - 1 - k) * 2 ^ k * 2 := by
          rw [← pow_add, ← pow_succ]; congr 1; omega
        have h5 : (1 : Rat) ≤ 2 ^ (k0 - 1 - k) := one_le_pow₀ (by norm_num)
        have h6 : (0 : Rat) < 2 ^ k := by positivity
        rw [h4]
        calc (m : Rat) * 2 ^ k < 2 ^ 53 * 2 ^ k := by gcongr
          _ = 2 ^ 52 * (1 * 2 ^ k * 2) := by ring
          _ ≤ 2 ^ 52 * (2 ^ (k0 - 1 - k) * 2 ^ k * 2) := by gcongr
      have h7 : |q * C - M * 2 ^ k0| ≤ |q * C - ((2 ^ 52 : Nat) : Rat) * 2 ^ k0| := by
        by_cases hm : 2 ^ 52 = M
        · rw [hm]
        · exact (mult _ hm).1
      rw [Nat.cast_pow, Nat.cast_ofNat] at h7
      rw [abs_of_nonneg (by linarith : (0 : Rat) ≤ q * C - 2 ^ 52 * 2 ^ k0)] at h7
      rw [abs_of_nonneg (by linarith : (0 : Rat) ≤ q * C - m * 2 ^ k)]
      exact ⟨by linarith, fun h => by linarith⟩
  refine ⟨?_, fun y hy => ?_, fun y hy hne he m k h1 h2 h3 => ?_⟩
  · by_cases h : M < 2 ^ 53
    · exact ⟨M, k0, h, by omega, by rw [hC]; exact hx⟩
    · have : M = 2 ^ 53 := by omega
      refine ⟨2 ^ 52, k0 + 1, by norm_num, by omega, ?_⟩
      rw [hC, hx, this]
      push_cast
      ring
  · by_cases e : y = x
    · rw [e]
    · have := (main y hy e).1
      rw [← hx, ← scale, ← scale] at this
      exact le_of_mul_le_mul_right this hc
  · have he' : |q * C - M * 2 ^ k0| = |q * C - y * C| := by rw [← hx, ← scale, ← scale, he]
    have hev := hb ((main y hy hne).2 he')
    rw [hC, hx] at h3
    have h3 : M * 2 ^ k0 = m * 2 ^ k := by exact_mod_cast h3
    have hp : ∀ i, 0 < 2 ^ i := fun i => Nat.two_pow_pos i
    rcases Nat.lt_trichotomy k k0 with h | h | h
    · have e : 2 ^ k0 = 2 ^ (k0 - 1 - k) * 2 * 2 ^ k := by
        rw [← pow_succ, ← pow_add]; congr 1; omega
      rw [e, ← Nat.mul_assoc] at h3
      have := Nat.eq_of_mul_eq_mul_right (hp k) h3
      rw [← this, ← Nat.mul_assoc]
      exact Nat.mul_mod_left _ _
    · subst h
      have := Nat.eq_of_mul_eq_mul_right (hp k) h3
      omega
    · have h2 := h2.resolve_right (by omega)
      have e : 2 ^ k = 2 * 2 ^ (k - 1 - k0) * 2 ^ k0 := by
        rw [← pow_succ', ← pow_add]; congr 1; omega
      rw [e, ← Nat.mul_assoc] at h3
      have h4 := Nat.eq_of_mul_eq_mul_right (hp k0) h3
      have h5 := hp (k - 1 - k0)
      generalize 2 ^ (k - 1 - k0) = t at h4 h5
      have h6 : m * 2 ≤ m * (2 * t) := Nat.mul_le_mul_left _ (by omega)
      have : m = 2 ^ 52 := by omega
      rw [this]
      rfl

theorem roundNN_eq {n d : Nat} (hn : 0 < n) (hd : 0 < d) : ∃ k0 M : Nat, M = roundHalfEven (n * 2 ^ 1074) (d * 2 ^ k0) ∧ (n : Rat) / d * 2 ^ 1074 < 2 ^ 53 * 2 ^ k0 ∧
    (k0 = 0 ∨ 2 ^ 52 * 2 ^ k0 ≤ (n : Rat) / d * 2 ^ 1074) ∧ ∃ v : Rat, v * 2 ^ 1074 = M * 2 ^ k0 ∧ (roundNN n d = .fin v ∧ (M * 2 ^ k0 < 2 ^ 2098 ∨ k0 < 1074) ∨ roundNN n d = .inf false ∧ 2 ^ 2098 ≤ M * 2 ^ k0) := by
  obtain ⟨h1, h2⟩ := floorLog2_spec hn hd
  have two : (2 : Rat) ≠ 0 := by norm_num
  have one : (1 : Rat) ≤ 2 := by norm_num
  have hp : ∀ i, 0 < 2 ^ i := fun i => Nat.two_pow_pos i
  have hc : (0 : Rat) < 2 ^ 1074 := by positivity
  have hz : (2 : Rat) ^ (1074 : Int) = 2 ^ 1074 := zpow_ofNat 2 1074
  unfold roundNN
  rw [if_neg hn.ne']
  dsimp only
  generalize floorLog2 n d = l at *
  obtain ⟨k0, hk⟩ := Int.eq_ofNat_of_zero_le (a := max (l - 52) (-1074) + 1074) (by omega)
  have hup : (n : Rat) / d * 2 ^ 1074 < 2 ^ 53 * 2 ^ k0 := by
    calc (n : Rat) / d * 2 ^ 1074 < 2 ^ (l + 1) * 2 ^ 1074 := by gcongr
      _ = 2 ^ (l + 1 + 1074) := by rw [zpow_add₀ two (l + 1), hz]
      _ ≤ 2 ^ ((53 + k0 : Nat) : Int) := zpow_le_zpow_right₀ one (by push_cast; omega)
      _ = 2 ^ 53 * 2 ^ k0 := by rw [zpow_natCast, pow_add]
  have hlo : k0 = 0 ∨ 2 ^ 52 * 2 ^ k0 ≤ (n : Rat) / d * 2 ^ 1074 := by
    by_cases h0 : k0 = 0
    · exact .inl h0
    · right
      calc (2 : Rat) ^ 52 * 2 ^ k0 = 2 ^ ((52 + k0 : Nat) : Int) := by rw [zpow_natCast, pow_add]
        _ = 2 ^ (l + 1074) := by apply congrArg; push_cast; omega
        _ = 2 ^ l * 2 ^ 1074 := by rw [zpow_add₀ two, hz]
        _ ≤ (n : Rat) / d * 2 ^ 1074 := by gcongr
  refine ⟨k0, _, rfl, hup, hlo, ?_⟩
  generalize max (l - 52) (-1074) = e at *
  split
  · rename_i he
    obtain ⟨j, hj⟩ := Int.eq_ofNat_of_zero_le he
    have hkj : k0 = j + 1074 := by omega
    have hM : roundHalfEven (n * 2 ^ 1074) (d * 2 ^ k0) = roundHalfEven n (d * 2 ^ j) := by
      rw [hkj, pow_add, ← Nat.mul_assoc, rhe_mul _ _ (hp _)]
    rw [hM, hj, Int.toNat_natCast]
    have hv : ((roundHalfEven n (d * 2 ^ j) * 2 ^ j : Nat) : Rat) * 2 ^ 1074 = (roundHalfEven n (d * 2 ^ j) : Nat) * 2 ^ k0 := by
      push_cast
      rw [hkj, pow_add, mul_assoc]
    refine ⟨_, hv, ?_⟩
    have e1 : roundHalfEven n (d * 2 ^ j) * 2 ^ k0 = roundHalfEven n (d * 2 ^ j) * 2 ^ j * 2 ^ 1074 := by
      rw [hkj, pow_add, Nat.mul_assoc]
    have e2 : (2 : Nat) ^ 2098 = 2 ^ 1024 * 2 ^ 1074 := by rw [← pow_add]
    rw [e1, e2]
    split
    · rename_i hov
      exact .inr ⟨rfl, Nat.mul_le_mul_right _ hov⟩
    · rename_i hov
      exact .inl ⟨rfl, .inl (Nat.mul_lt_mul_of_pos_right (Nat.lt_of_not_le hov) (hp _))⟩
  · rename_i he
    obtain ⟨j, hj⟩ := Int.eq_ofNat_of_zero_le (a := -e) (by omega)
    have hkj : 1074 = j + k0 := by omega
    have hM : roundHalfEven (n * 2 ^ 1074) (d * 2 ^ k0) = roundHalfEven (n * 2 ^ j) d := by
      rw [hkj, pow_add, ← Nat.mul_assoc, rhe_mul _ _ (hp _)]
    rw [hM, hj, Int.toNat_natCast]
    refine ⟨_, ?_, .inl ⟨rfl, .inr (by omega)⟩⟩
    rw [Rat.mkRat_eq_div, hkj, pow_add]
    push_cast
    have : (2 : Rat) ^ j ≠ 0 := by positivity
    field_simp

theorem big_scaled : ((2 : Rat) ^ 1024 - 2 ^ 970) * 2 ^ 1074 = 2 ^ 2044 * (2 ^ 54 - 1) := by
  have e1 : (2 : Rat) ^ 1024 * 2 ^ 1074 = 2 ^ 2044 * 2 ^ 54 := by rw [← pow_add, ← pow_add]
  have e2 : (2 : Rat) ^ 970 * 2 ^ 1074 = 2 ^ 2044 := by rw [← pow_add]
  rw [sub_mul, e1, e2, mul_sub, mul_one]

theorem roundNN_rounded {n d : Nat} (hd : 0 < d) : Rounded ((n : Rat) / d) (roundNN n d) ∧
    (∀ x, roundNN n d = .fin x → 1 ≤ (n : Rat) / d → |(n : Rat) / d - x| ≤ (n : Rat) / d / 2 ^ 53) := by
  have hc : (0 : Rat) < 2 ^ 1074 := by positivity
  have hT : (0 : Rat) < 2 ^ 2044 := by positivity
  have hbig : ∀ q : Rat, q < 2 ^ 1024 - 2 ^ 970 ↔ q * 2 ^ 1074 < 2 ^ 2044 * (2 ^ 54 - 1) := fun q => by
    rw [← big_scaled]; exact (mul_lt_mul_iff_left₀ hc).symm
  by_cases h0 : n = 0
  · subst h0
    rw [show roundNN 0 d = .fin 0 from rfl, Nat.cast_zero, zero_div]
    refine ⟨⟨(hbig 0).2 ?_, ⟨0, 0, by norm_num, by norm_num, by simp⟩, fun y _ => by simp, fun y _ hy h => ?_⟩, ?_⟩
    · rw [zero_mul]
      have : (0 : Rat) < 2 ^ 54 - 1 := by norm_num
      exact mul_pos hT this
    · simp only [sub_self, abs_zero, zero_sub, abs_neg] at h
      exact absurd (abs_eq_zero.1 h.symm) hy
    · intro x _ h
      exact absurd h (by norm_num)
  · have hn : 0 < n := by omega
    obtain ⟨k0, M, hM, hup, hlo, v, hv, hres⟩ := roundNN_eq hn hd
    have hd' : (0 : Rat) < d := by exact_mod_cast hd
    have hU : (0 : Rat) < 2 ^ k0 := by positivity
    obtain ⟨ha, hb'⟩ := rhe_spec (n * 2 ^ 1074) (b := d * 2 ^ k0) (Nat.mul_pos hd (Nat.two_pow_pos _))
    rw [← hM] at ha hb'
    have sc : |((n * 2 ^ 1074 : Nat) : Rat) - M * ((d * 2 ^ k0 : Nat) : Rat)| = |(n : Rat) / d * 2 ^ 1074 - M * 2 ^ k0| * d := by
      rw [← abs_of_pos hd', ← abs_mul, abs_of_pos hd']
      apply congrArg
      rw [Nat.cast_mul, Nat.cast_mul, Nat.cast_pow, Nat.cast_pow, Nat.cast_ofNat]
      clear hres hv hbig hc hM ha hb' hup hlo
      generalize (2 : Rat) ^ 1074 = C
      field_simp
    have sc2 : ((d * 2 ^ k0 : Nat) : Rat) / 2 = 2 ^ k0 / 2 * d := by push_cast; ring
    rw [sc, sc2] at ha hb'
    have ha := le_of_mul_le_mul_right ha hd'
    have hb' : |(n : Rat) / d * 2 ^ 1074 - M * 2 ^ k0| = 2 ^ k0 / 2 → M % 2 = 0 := fun h => hb' (by rw [h])
    have hT98 : ((2 ^ 2098 : Nat) : Rat) = 2 ^ 2044 * 2 ^ 54 := by
      rw [Nat.cast_pow, Nat.cast_ofNat, ← pow_add]
    have hres' : roundNN n d = .fin v ∧ ((M : Rat) * 2 ^ k0 < 2 ^ 2044 * 2 ^ 54 ∨ k0 < 1074) ∨ roundNN n d = .inf false ∧ 2 ^ 2044 * 2 ^ 54 ≤ (M : Rat) * 2 ^ k0 := by
      rw [← hT98]
      have e : (M : Rat) * 2 ^ k0 = ((M * 2 ^ k0 : Nat) : Rat) := by rw [Nat.cast_mul, Nat.cast_pow, Nat.cast_ofNat]
      rw [e, Nat.cast_lt, Nat.cast_le]
      exact hres
    clear hres hT98 sc sc2 hM
    have hone : k0 = 0 → (2 : Rat) ^ k0 * 2 ^ 52 ≤ 2 ^ 1074 := by
      rintro rfl
      rw [← pow_add]
      exact pow_le_pow_right₀ (by norm_num) (by norm_num)
    have near := @nearest_of ((n : Rat) / d) v M k0 hv ha hb'
    generalize (n : Rat) / d = q at *
    -- powers of two around the overflow threshold
    have p1 : k0 ≤ 2044 → (2 : Rat) ^ k0 ≤ 2 ^ 2044 := fun h => pow_le_pow_right₀ (by norm_num) h
    have p2 : k0 = 2045 → (2 : Rat) ^ k0 = 2 ^ 2044 * 2 := fun h => by rw [h, pow_succ]
    have p3 : 2046 ≤ k0 → (2 : Rat) ^ 2044 * 4 ≤ 2 ^ k0 := fun h => by
      calc (2 : Rat) ^ 2044 * 4 = 2 ^ 2046 := by rw [pow_succ _ 2045, pow_succ _ 2044, mul_assoc]; norm_num
        _ ≤ 2 ^ k0 := pow_le_pow_right₀ (by norm_num) h
    simp only [Rounded]
    generalize (2 : Rat) ^ 2044 = T at *
    have err : ∀ x, roundNN n d = .fin x → 1 ≤ q → |q - x| ≤ q / 2 ^ 53 := by
      intro x hx h1
      have hxv : v = x := by
        rcases hres' with ⟨h, -⟩ | ⟨h, -⟩
        · rw [h] at hx; cases hx; rfl
        · rw [h] at hx; cases hx
      subst hxv
      generalize (2 : Rat) ^ 1074 = C at *
      rw [← hv, ← sub_mul, abs_mul, abs_of_pos hc] at ha
      have hq : 2 ^ 52 * 2 ^ k0 ≤ q * C := by
        rcases hlo with h | h
        · have := hone h
          nlinarith
        · exact h
      have : |q - v| * C ≤ q / 2 ^ 53 * C := by
        generalize (2 : Rat) ^ k0 = U at *
        linarith
      exact le_of_mul_le_mul_right this hc
    refine ⟨?_, err⟩
    obtain ⟨a1, a2⟩ := abs_le.1 ha
    have hM53 : M ≤ 2 ^ 53 := by
      by_contra hcon
      have h1 : (2 : Rat) ^ 53 + 1 ≤ M := by exact_mod_cast Nat.lt_of_not_le hcon
      have h3 : ((2 : Rat) ^ 53 + 1) * 2 ^ k0 ≤ M * 2 ^ k0 := by gcongr
      rw [add_mul, one_mul] at h3
      linarith
    have hMr : (M : Rat) ≤ 2 ^ 53 := by exact_mod_cast hM53
    have hMU : (M : Rat) * 2 ^ k0 ≤ 2 ^ 53 * 2 ^ k0 := by gcongr
    rcases hres' with ⟨hr, hs⟩ | ⟨hr, hs⟩
    · rw [hr]
      have hk : k0 ≤ 2045 := by
        by_contra hcon
        have hp3 := p3 (by omega)
        have hlo := hlo.resolve_left (by omega)
        have h52 : (2 : Rat) ^ 52 ≤ M := by
          by_contra h
          have h : M < 2 ^ 52 := by
            by_contra h'
            exact h (by exact_mod_cast Nat.le_of_not_lt h')
          have h : (M : Rat) + 1 ≤ 2 ^ 52 := by exact_mod_cast h
          have h : ((M : Rat) + 1) * 2 ^ k0 ≤ 2 ^ 52 * 2 ^ k0 := by gcongr
          rw [add_mul, one_mul] at h
          linarith
        have hs := hs.resolve_right (by omega)
        have : (2 : Rat) ^ 52 * 2 ^ k0 ≤ M * 2 ^ k0 := by gcongr
        linarith
      have hlt : q * 2 ^ 1074 < T * (2 ^ 54 - 1) ∧ (M < 2 ^ 53 ∧ k0 ≤ 2045 ∨ k0 + 1 ≤ 2045) := by
        by_cases h45 : k0 = 2045
        · have hU2 := p2 h45
          have hs := hs.resolve_right (by omega)
          have hM' : M < 2 ^ 53 := by
            by_contra h
            have : M = 2 ^ 53 := by omega
            rw [this] at hs
            push_cast at hs
            linarith
          refine ⟨?_, .inl ⟨hM', hk⟩⟩
          by_cases h' : M + 1 = 2 ^ 53
          · have e : (M : Rat) = 2 ^ 53 - 1 := by
              have : (M : Rat) + 1 = 2 ^ 53 := by exact_mod_cast h'
              linarith
            rcases lt_or_eq_of_le ha with h | h
            · have := (abs_lt.1 h).2
              rw [e] at this
              linarith
            · have := hb' h
              omega
          · have e : (M : Rat) + 2 ≤ 2 ^ 53 := by
              have : M + 2 ≤ 2 ^ 53 := by omega
              exact_mod_cast this
            have e : ((M : Rat) + 2) * 2 ^ k0 ≤ 2 ^ 53 * 2 ^ k0 := by gcongr
            rw [add_mul] at e
            linarith
        · have := p1 (by omega)
          exact ⟨by linarith, .inr (by omega)⟩
      exact ⟨(hbig q).2 hlt.1, near hM53 hlo hlt.2⟩
    · rw [hr]
      refine ⟨rfl, not_lt.1 fun h => ?_⟩
      have h := (hbig q).1 h
      by_cases h46 : 2046 ≤ k0
      · have hp3 := p3 h46
        have hlo := hlo.resolve_left (by omega)
        linarith
      · by_cases h45 : k0 = 2045
        · rw [p2 h45] at *
          linarith
        · have := p1 (by omega)
          linarith

theorem roundQ_rounded {q : Rat} (hq : 0 ≤ q) : Rounded q (roundQ q) ∧ (∀ x, roundQ q = .fin x → 1 ≤ q → |q - x| ≤ q / 2 ^ 53) := by
  have h := roundNN_rounded (n := q.num.toNat) (d := q.den) q.den_pos
  have e : ((q.num.toNat : Nat) : Rat) / q.den = q := by
    have h0 : 0 ≤ q.num := Rat.num_nonneg.2 hq
    have : ((q.num.toNat : Nat) : Rat) = (q.num : Rat) := by
      rw [← Int.cast_natCast, Int.toNat_of_nonneg h0]
    rw [this]
    exact Rat.num_div_den q
  rw [e] at h
  exact h

end Pdf
