import Verif.Lemmas.Parser
import Verif.Lemmas.Assoc
import Verif.Spec.Print
/-!
What the `String()` methods print for whole numbers.
-/

namespace Pdf
open Spec

/-! ### Decimal digits -/

theorem natDigitsAux_eq : ∀ (f n : Nat) (acc : Bytes), n < f → natDigitsAux f n acc =
    (if n < 10 then [] else natDigits (n / 10)) ++ UInt8.ofNat (48 + n % 10) :: acc := by
  intro f
  induction f using Nat.strongRecOn with
  | _ f ih =>
  intro n acc hn
  cases f with
  | zero => omega
  | succ f =>
    rw [natDigitsAux]
    by_cases h : n < 10
    · have : n / 10 = 0 := by omega
      simp [this, h]
    · have h0 : n / 10 ≠ 0 := by omega
      simp only [h0, h, if_false]
      rw [ih f (by omega) (n / 10) _ (by omega)]
      have e := ih (n / 10 + 1) (by omega) (n / 10) [] (by omega)
      rw [← natDigits] at e
      rw [e]
      simp

theorem natDigits_eq (n : Nat) : natDigits n = (if n < 10 then [] else natDigits (n / 10)) ++ [decDigit (n % 10)] := by
  conv => lhs; rw [natDigits, natDigitsAux_eq _ _ _ (Nat.lt_succ_self n)]
  rfl

/-- The digits of `n`: they spell `n`, and a nonzero number has no leading zeros. -/
theorem natDigits_spec (n : Nat) : ∃ ds : List Nat, natDigits n = ds.map decDigit ∧ (∀ d ∈ ds, d < 10) ∧ ds ≠ [] ∧ decVal ds = n ∧
    n < 10 ^ ds.length ∧ (0 < n → 10 ^ (ds.length - 1) ≤ n) := by
  induction n using Nat.strongRecOn with
  | _ n ih =>
  rw [natDigits_eq]
  by_cases h : n < 10
  · refine ⟨[n], by simp [h, Nat.mod_eq_of_lt h], by simpa using h, by simp, by simp [decVal], by simpa using h, fun h0 => by simp; omega⟩
  · obtain ⟨ds, h1, h2, h3, h4, h5, h6⟩ := ih (n / 10) (by omega)
    have hl : 0 < ds.length := List.length_pos_iff.2 h3
    refine ⟨ds ++ [n % 10], by simp [h, h1], ?_, by simp, ?_, ?_, ?_⟩
    · intro d hd
      rw [List.mem_append, List.mem_singleton] at hd
      rcases hd with hd | hd
      · exact h2 d hd
      · omega
    · rw [decVal, List.foldl_append]
      rw [decVal] at h4
      simp only [h4, List.foldl_cons, List.foldl_nil]
      omega
    · rw [List.length_append, List.length_singleton, Nat.pow_succ]; omega
    · intro _
      have h6 := h6 (by omega)
      have hp : 10 ^ ds.length = 10 ^ (ds.length - 1) * 10 := by rw [← Nat.pow_succ]; congr 1; omega
      rw [List.length_append, List.length_singleton, Nat.add_sub_cancel, hp]
      omega

theorem natDigits_mul (m k : Nat) (hm : 0 < m) : natDigits (m * 10 ^ k) = natDigits m ++ List.replicate k 48 := by
  induction k with
  | zero => simp
  | succ k ih =>
    have hp : 0 < 10 ^ k := Nat.pow_pos (by decide)
    have hpos : 0 < m * 10 ^ k := Nat.mul_pos hm hp
    have e : m * 10 ^ (k + 1) = (m * 10 ^ k) * 10 := by rw [Nat.pow_succ, Nat.mul_assoc]
    rw [natDigits_eq, if_neg (by omega), e, Nat.mul_div_cancel _ (by decide), Nat.mul_mod_left, ih, List.append_assoc,
      List.replicate_succ']
    rfl

theorem natDigits_length {n : Nat} (h : 0 < n) : 10 ^ ((natDigits n).length - 1) ≤ n ∧ n < 10 ^ (natDigits n).length ∧ 0 < (natDigits n).length := by
  obtain ⟨ds, h1, -, h3, -, h5, h6⟩ := natDigits_spec n
  rw [h1, List.length_map]
  exact ⟨h6 h, h5, List.length_pos_iff.2 h3⟩

/-! ### Numbers -/

theorem natCast_num (n : Nat) : ((n : Rat)).num.toNat = n := by rw [Rat.num_natCast]; simp

theorem natCast_den (n : Nat) : ((n : Rat)).den = 1 := Rat.den_natCast n

theorem decimalPoint_nat {n : Nat} (h : 0 < n) : decimalPoint (n : Rat) = ((natDigits n).length : Int) := by
  obtain ⟨h1, -, h3⟩ := natDigits_length h
  rw [decimalPoint, natCast_num, natCast_den]
  have e1 : (natDigits 1).length = 1 := rfl
  simp only [e1]
  have e2 : ((((natDigits n).length : Nat) : Int) - ((1 : Nat) : Int)).toNat = (natDigits n).length - 1 := by omega
  have e3 : (0 : Int) ≤ ((natDigits n).length : Int) - ((1 : Nat) : Int) := by omega
  simp only [e3, e2, if_true, Nat.one_mul, h1]
  omega

theorem roundHalfEven_le (a b : Nat) : roundHalfEven a b ≤ a / b + 1 := by
  simp only [roundHalfEven]
  split
  · omega
  · split
    · omega
    · have := Nat.mod_lt (a / b) (by decide : 2 > 0); omega

theorem cast_inj {a b : Nat} (h : (F64.fin (a : Rat)) = .fin (b : Rat)) : a = b := by
  injection h with h
  have := congrArg (fun q : Rat => q.num.toNat) h
  simpa [natCast_num] using this

theorem shortest_nat {n : Nat} (h0 : 0 < n) (hn : n < 1000000) : ∀ (f nd : Nat), nd ≤ (natDigits n).length → (natDigits n).length ≤ nd + f →
    ∃ m k : Nat, shortestAux (n : Rat) ((natDigits n).length : Int) f nd = (m, (k : Int)) ∧ m * 10 ^ k = n := by
  obtain ⟨hL1, hL2, hL3⟩ := natDigits_length h0
  intro f
  induction f with
  | zero =>
    intro nd h1 h2
    have e : nd = (natDigits n).length := by omega
    subst e
    refine ⟨n, 0, ?_, by simp⟩
    rw [shortestAux]
    simp only [Int.sub_self, scale10, Int.le_refl, if_true, natCast_num, natCast_den, Int.toNat_zero, Nat.pow_zero, Nat.mul_one,
      roundHalfEven_one]
    rfl
  | succ f ih =>
    intro nd h1 h2
    have hk : ((natDigits n).length : Int) - (nd : Int) = (((natDigits n).length - nd : Nat) : Int) := by omega
    have hm : scale10 (n : Rat) ((nd : Int) - ((natDigits n).length : Int)) = roundHalfEven n (10 ^ ((natDigits n).length - nd)) := by
      rw [scale10]
      by_cases hz : nd = (natDigits n).length
      · rw [hz]; simp
      · rw [if_neg (by omega), natCast_num, natCast_den]
        congr 1
        have : (-((nd : Int) - ((natDigits n).length : Int))).toNat = (natDigits n).length - nd := by omega
        rw [this]; simp
    rw [shortestAux]
    simp only [hm, hk]
    have hb := roundHalfEven_le n (10 ^ ((natDigits n).length - nd))
    generalize hmm : roundHalfEven n (10 ^ ((natDigits n).length - nd)) = m at hb
    split
    · rename_i hof
      refine ⟨m, (natDigits n).length - nd, rfl, ?_⟩
      rw [ofDecimal, if_pos (by omega), Int.toNat_natCast] at hof
      have hp : 10 ^ ((natDigits n).length - nd) ≤ 10 * n := by
        have : 10 ^ ((natDigits n).length - nd) ≤ 10 ^ ((natDigits n).length - 1 + 1) := Nat.pow_le_pow_right (by decide) (by omega)
        rw [Nat.pow_succ] at this
        omega
      have hmul : m * 10 ^ ((natDigits n).length - nd) ≤ n + 10 * n := by
        have h1 := Nat.mul_le_mul_right (10 ^ ((natDigits n).length - nd)) hb
        have h2 := Nat.div_mul_le_self n (10 ^ ((natDigits n).length - nd))
        rw [Nat.add_mul] at h1
        omega
      rw [roundNN_int (by omega)] at hof
      exact cast_inj hof
    · rename_i hof
      by_cases hz : nd = (natDigits n).length
      · exfalso
        apply hof
        rw [hz] at hmm
        simp only [Nat.sub_self, Nat.pow_zero, roundHalfEven_one] at hmm
        rw [← hmm, hz, Nat.sub_self, ofDecimal]
        simp only [Int.cast_ofNat_Int, Int.le_refl, if_true, Int.toNat_zero, Nat.pow_zero, Nat.mul_one]
        exact roundNN_int (by omega)
      · have := ih (nd + 1) (by omega) (by omega)
        exact this

theorem stripZeros_spec : ∀ (f m k : Nat), ∃ m' k' : Nat, stripZeros f m (k : Int) = (m', (k' : Int)) ∧ m' * 10 ^ k' = m * 10 ^ k := by
  intro f
  induction f with
  | zero => intro m k; exact ⟨m, k, rfl, rfl⟩
  | succ f ih =>
    intro m k
    rw [stripZeros]
    split
    · rename_i h
      obtain ⟨m', k', h1, h2⟩ := ih (m / 10) (k + 1)
      refine ⟨m', k', h1, ?_⟩
      rw [h2, Nat.pow_succ]
      have : m = m / 10 * 10 := by omega
      conv => rhs; rw [this]
      rw [Nat.mul_assoc, Nat.mul_comm 10]
    · exact ⟨m, k, rfl, rfl⟩

theorem formatPos_nat {n : Nat} (h0 : 0 < n) (hn : n < 1000000) : formatPos (n : Rat) = natDigits n := by
  obtain ⟨hL1, hL2, hL3⟩ := natDigits_length h0
  have hL6 : (natDigits n).length ≤ 6 := by
    refine Nat.le_of_not_lt fun hc => ?_
    have : 10 ^ 6 ≤ 10 ^ ((natDigits n).length - 1) := Nat.pow_le_pow_right (by decide) (by omega)
    omega
  obtain ⟨m, k, h1, h2⟩ := shortest_nat h0 hn 16 1 (by omega) (by omega)
  obtain ⟨m', k', h3, h4⟩ := stripZeros_spec 20 m k
  have hm' : 0 < m' := by
    rcases Nat.eq_zero_or_pos m' with h | h
    · rw [h, h2] at h4; omega
    · exact h
  have hd : natDigits n = natDigits m' ++ List.replicate k' 48 := by rw [← natDigits_mul _ _ hm', h4, h2]
  have hlen : (natDigits n).length = (natDigits m').length + k' := by rw [hd]; simp
  rw [formatPos, decimalPoint_nat h0]
  simp only
  rw [h1]
  simp only
  rw [h3]
  simp only
  rw [if_neg (by omega), if_neg (by omega), if_pos (by omega)]
  have : (((natDigits m').length : Int) + (k' : Int) - ((natDigits m').length : Int)).toNat = k' := by omega
  rw [this, hd]

theorem intNum_toBytes (neg : Bool) {n : Nat} (hn : n < 1000000) : (intNum neg n).toBytes = (if neg then [45] else []) ++ natDigits n := by
  rcases Nat.eq_zero_or_pos n with rfl | h0
  · cases neg <;> simp [intNum, F64.toBytes] <;> rfl
  · have hq : (0 : Rat) < (n : Rat) := by exact_mod_cast h0
    have hne : ¬ ((n : Rat) = 0) := by intro h; rw [h] at hq; exact absurd hq (by decide)
    cases neg with
    | false =>
      simp only [intNum, Bool.false_eq_true, if_false, List.nil_append]
      rw [F64.toBytes, if_neg hne, if_neg (by exact Rat.not_lt.2 (Rat.le_of_lt hq)), formatPos_nat h0 hn]
    | true =>
      simp only [intNum, if_true, if_neg (show ¬ n = 0 by omega)]
      have hlt : (-(n : Rat)) < 0 := by
        have := Rat.neg_lt_neg hq; simpa using this
      rw [F64.toBytes, if_neg, if_pos hlt, Rat.neg_neg, formatPos_nat h0 hn]
      · rfl
      · intro h; rw [h] at hlt; exact absurd hlt (by decide)

theorem intDigits_nat (n : Nat) : intDigits (n : Int) = natDigits n := by
  rw [intDigits, if_neg (by omega)]; simp

end Pdf
