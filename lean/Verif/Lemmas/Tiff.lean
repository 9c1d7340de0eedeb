import Verif.Lemmas.Bits
namespace Pdf
open Spec

theorem wrap64_id {x : Int} (h1 : -9223372036854775808 ≤ x) (h2 : x < 9223372036854775808) :
    wrap64 x = x := by
  simp only [wrap64]; omega

theorem wrap64_nat {y : Int} (x : Nat) (e : (x : Int) = y) (h : x < 9223372036854775808) :
    wrap64 y = x := by
  subst e; exact wrap64_id (by omega) (by omega)

attribute [local irreducible] wrap64

section tiff
variable {N K M R : Nat} {D E : Bytes}

/-- State of the decoder at bit position `x`: decoded before, untouched from there on. -/
def TInv (D E : Bytes) (d : Bytes) (x : Nat) : Prop :=
  d.length = D.length ∧ ∀ k, k < 8 * D.length → bit d k = if k < x then bit D k else bit E k

/-- Bit position of component `i` of column `c` in row `r`. -/
def tpos (N K M r c i : Nat) : Nat := r * rowBytes N K M * 8 + (c * K + i) * N

theorem tpos_bound (r c i : Nat) (hr : r < R) (hc : c < M) (hi : i < K) (hD : D.length = R * rowBytes N K M) :
    tpos N K M r c i + N ≤ 8 * D.length := by
  have h1 : (c * K + i) * N + N ≤ N * K * M := by
    have : c * K + i + 1 ≤ K * M := by
      have : (c + 1) * K ≤ M * K := Nat.mul_le_mul_right _ hc
      rw [Nat.succ_mul] at this; rw [Nat.mul_comm K M]; omega
    calc (c * K + i) * N + N = (c * K + i + 1) * N := by rw [Nat.succ_mul]
      _ ≤ (K * M) * N := Nat.mul_le_mul_right _ this
      _ = N * K * M := by rw [Nat.mul_comm, Nat.mul_assoc]
  have h2 : N * K * M ≤ rowBytes N K M * 8 := by rw [rowBytes]; omega
  have h3 : (r + 1) * rowBytes N K M ≤ R * rowBytes N K M := Nat.mul_le_mul_right _ hr
  rw [Nat.succ_mul] at h3
  rw [tpos, hD]; omega

theorem tiffComps_spec (h : TiffDiff N K M R D E) (hN : 1 ≤ N) (hN16 : N ≤ 16) (hlen : D.length < 1152921504606846976)
    (r c : Nat) (hr : r < R) (hc1 : 1 ≤ c) (hc : c < M) :
    ∀ (k i : Nat) (d : Bytes), i + k = K → TInv D E d (tpos N K M r c i) →
      ∃ d', tiffComps N K (r * rowBytes N K M * 8 : Nat) c k i d = .ok (d', false) ∧
        TInv D E d' (tpos N K M r c K) := by
  intro k
  induction k with
  | zero =>
    intro i d hi hd
    obtain rfl : i = K := by omega
    exact ⟨d, rfl, hd⟩
  | succ k ih =>
    intro i d hi hd
    have hb := tpos_bound (N := N) r c i hr hc (show i < K by omega) h.lenD
    have hNi : 0 < N := hN
    have e1 : c * K + i ≤ (c * K + i) * N := Nat.le_mul_of_pos_right _ hNi
    have hKN : K * N ≤ c * K * N := Nat.mul_le_mul_right _ (Nat.le_mul_of_pos_left _ hc1)
    have hcKN : (c * K + i) * N = c * K * N + i * N := Nat.add_mul _ _ _
    have htp : tpos N K M r c i = r * rowBytes N K M * 8 + (c * K + i) * N := rfl
    have b2 : c * K + i < 9223372036854775808 := by omega
    have b1 : c * K < 9223372036854775808 := by omega
    have b3 : (c * K + i) * N < 9223372036854775808 := by omega
    have b4 : tpos N K M r c i < 9223372036854775808 := by omega
    have b5 : K * N < 9223372036854775808 := by omega
    have hprev : tpos N K M r c i = tpos N K M r (c - 1) i + K * N := by
      obtain ⟨c, rfl⟩ : ∃ q, c = q + 1 := ⟨c - 1, by omega⟩
      simp only [tpos, Nat.add_sub_cancel]
      rw [Nat.add_mul c 1 K, Nat.one_mul, show c * K + K + i = (c * K + i) + K by omega, Nat.add_mul _ K N]
      omega
    have w6 : wrap64 ((tpos N K M r c i : Int) - ((K * N : Nat) : Int)) = (tpos N K M r (c - 1) i : Int) := by
      rw [wrap64_id (by omega) (by omega)]; omega
    have w1 : wrap64 ((c : Int) * K) = ((c * K : Nat) : Int) := by
      exact wrap64_nat (c * K) (Int.natCast_mul _ _) b1
    have w2 : wrap64 (((c * K : Nat) : Int) + i) = ((c * K + i : Nat) : Int) := by
      exact wrap64_nat (c * K + i) (Int.natCast_add _ _) b2
    have w3 : wrap64 (((c * K + i : Nat) : Int) * N) = (((c * K + i) * N : Nat) : Int) := by
      exact wrap64_nat ((c * K + i) * N) (Int.natCast_mul _ _) b3
    have w4 : wrap64 (((r * rowBytes N K M * 8 : Nat) : Int) + ((c * K + i) * N : Nat)) = (tpos N K M r c i : Int) := by
      exact wrap64_nat (tpos N K M r c i) (Int.natCast_add _ _) b4
    have w5 : wrap64 ((K : Int) * N) = ((K * N : Nat) : Int) := by
      exact wrap64_nat (K * N) (Int.natCast_mul _ _) b5
    obtain ⟨hdl, hdb⟩ := hd
    rw [tiffComps]
    simp only [w1, w2, w3, w4, w5, w6]
    clear w1 w2 w3 w4 w5 w6
    rw [if_neg (by omega), getBits_field _ _ _ hN (by omega), Res.bind_ok,
      getBits_field _ _ _ hN (by omega), Res.bind_ok]
    have hKpos : N ≤ K * N := Nat.le_mul_of_pos_left _ (by omega)
    have f1 : field d (tpos N K M r (c - 1) i) N = sample N K M D r (c - 1) i :=
      field_congr fun j hj => by
        rw [hdb _ (by omega), if_pos (by omega)]; rfl
    have f2 : field d (tpos N K M r c i) N = sample N K M E r c i :=
      field_congr fun j hj => by
        rw [hdb _ (by omega), if_neg (by omega)]; rfl
    rw [f1, f2]
    have hdiff := h.diff r c i hr hc1 hc (by omega)
    obtain ⟨d', s1, s2, s3⟩ := setBits_spec d (tpos N K M r c i) N
      (u32 (sample N K M E r c i + sample N K M D r (c - 1) i)) hN (by omega) (by omega)
    rw [s1, Res.bind_ok]
    have hnext : tpos N K M r c (i + 1) = tpos N K M r c i + N := by
      simp only [tpos, ← Nat.add_assoc]; rw [Nat.add_mul _ 1 N, Nat.one_mul]; omega
    have := ih (i + 1) d' (by omega) ⟨by rw [s2, hdl], ?_⟩
    · exact this
    intro j hj
    rw [hnext, s3]
    by_cases hin : tpos N K M r c i ≤ j ∧ j < tpos N K M r c i + N
    · rw [if_pos (by omega), if_pos (by omega)]
      have hbD : bit D j = (sample N K M D r c i).testBit (tpos N K M r c i + N - 1 - j) := by
        have := bit_eq_field D (tpos N K M r c i) N (j - tpos N K M r c i) (by omega)
        rw [show tpos N K M r c i + (j - tpos N K M r c i) = j by omega] at this
        rw [this, show N - 1 - (j - tpos N K M r c i) = tpos N K M r c i + N - 1 - j by omega]
        rfl
      rw [hbD, ← hdiff, Nat.testBit_mod_two_pow, u32, show 4294967296 = 2 ^ 32 by decide, Nat.testBit_mod_two_pow]
      have a1 : tpos N K M r c i + N - 1 - j < N := by omega
      have a2 : tpos N K M r c i + N - 1 - j < 32 := by omega
      simp [a1, a2]
    · rw [if_neg (by omega), hdb j hj]
      by_cases hlt : j < tpos N K M r c i
      · rw [if_pos hlt, if_pos (by omega)]
      · rw [if_neg hlt, if_neg (by omega)]

theorem tiffCols_spec (h : TiffDiff N K M R D E) (hN : 1 ≤ N) (hN16 : N ≤ 16) (hlen : D.length < 1152921504606846976)
    (r : Nat) (hr : r < R) :
    ∀ (k c : Nat) (d : Bytes), 1 ≤ c → c + k = M → TInv D E d (tpos N K M r c 0) →
      ∃ d', tiffCols N K (r * rowBytes N K M * 8 : Nat) k c d = .ok (d', false) ∧
        TInv D E d' (tpos N K M r M 0) := by
  intro k
  induction k with
  | zero =>
    intro c d _ hc hd
    obtain rfl : c = M := by omega
    exact ⟨d, rfl, hd⟩
  | succ k ih =>
    intro c d h1 hc hd
    obtain ⟨d1, e1, i1⟩ := tiffComps_spec h hN hN16 hlen r c hr h1 (by omega) K 0 d (by omega) hd
    have : tpos N K M r c K = tpos N K M r (c + 1) 0 := by
      simp only [tpos, Nat.add_mul, Nat.one_mul, Nat.zero_mul]; omega
    rw [this] at i1
    obtain ⟨d2, e2, i2⟩ := ih (c + 1) d1 (by omega) (by omega) i1
    refine ⟨d2, ?_, i2⟩
    rw [tiffCols, Int.toNat_natCast, show (0 : Int) = ((0 : Nat) : Int) from rfl, e1, Res.bind_ok]
    simpa using e2

/-- The bits of column 0 and the padding are the same in `D` and `E`. -/
theorem tiff_first_bits (h : TiffDiff N K M R D E) (hN : 1 ≤ N) (r j : Nat) (hr : r < R) (hj : j < K * N) :
    bit E (tpos N K M r 0 0 + j) = bit D (tpos N K M r 0 0 + j) := by
  have hf := h.first r (j / N) hr (Nat.div_lt_of_lt_mul (by rwa [Nat.mul_comm]))
  have e : tpos N K M r 0 0 + j = (r * rowBytes N K M * 8 + (0 * K + j / N) * N) + j % N := by
    have := Nat.div_add_mod j N
    rw [Nat.mul_comm] at this
    simp only [tpos, Nat.zero_mul, Nat.zero_add]; omega
  have hm : j % N < N := Nat.mod_lt _ hN
  rw [e, bit_eq_field _ _ N _ hm, bit_eq_field _ _ N _ hm]
  exact congrArg (Nat.testBit · _) hf

theorem tiffRows_spec (h : TiffDiff N K M R D E) (hN : 1 ≤ N) (hN16 : N ≤ 16) (hlen : D.length < 1152921504606846976)
    (hM : 1 ≤ M) (hW : 0 < rowBytes N K M) :
    ∀ (f r : Nat) (d : Bytes), r ≤ R → R < r + f → TInv D E d (r * rowBytes N K M * 8) →
      tiffRows N K M (rowBytes N K M) f r d = .ok D := by
  intro f
  induction f with
  | zero => intro r d h1 h2; omega
  | succ f ih =>
    intro r d h1 h2 hd
    have hlenR := h.lenD
    rw [tiffRows]
    by_cases hr : r < R
    · have hrow : (r + 1) * rowBytes N K M ≤ R * rowBytes N K M := Nat.mul_le_mul_right _ hr
      rw [Nat.succ_mul] at hrow
      have hcond : ((r : Int) * (rowBytes N K M : Nat) < d.length) := by
        rw [← Int.natCast_mul, hd.1]; omega
      rw [if_pos hcond]
      have w : wrap64 ((r : Int) * (rowBytes N K M : Nat) * 8) = (r * rowBytes N K M * 8 : Nat) := by
        rw [wrap64_id (by rw [← Int.natCast_mul]; omega) (by rw [← Int.natCast_mul]; omega)]; simp
      rw [w, show ((M : Int) - 1).toNat = M - 1 by omega]
      have hNKM : N * K * M ≤ rowBytes N K M * 8 := by rw [rowBytes]; omega
      have hKM : K * N ≤ N * K * M := by
        rw [Nat.mul_comm K N]; exact Nat.le_mul_of_pos_right _ hM
      -- column 0 needs no work
      have hstart : TInv D E d (tpos N K M r 1 0) := by
        refine ⟨hd.1, fun k hk => ?_⟩
        rw [hd.2 k hk]
        have e : tpos N K M r 1 0 = r * rowBytes N K M * 8 + K * N := by simp [tpos]
        by_cases hk1 : k < r * rowBytes N K M * 8
        · rw [if_pos hk1, if_pos (by omega)]
        · rw [if_neg hk1]
          by_cases hk2 : k < r * rowBytes N K M * 8 + K * N
          · rw [if_pos (by omega)]
            have := tiff_first_bits h hN r (k - r * rowBytes N K M * 8) hr (by omega)
            rwa [show tpos N K M r 0 0 + (k - r * rowBytes N K M * 8) = k by simp [tpos]; omega] at this
          · rw [if_neg (by omega)]
      obtain ⟨d1, e1, i1⟩ := tiffCols_spec h hN hN16 hlen r hr (M - 1) 1 d (by omega) (by omega) hstart
      rw [show (1 : Int) = ((1 : Nat) : Int) from rfl, e1, Res.bind_ok]
      simp only [Bool.false_eq_true, if_false]
      apply ih (r + 1) d1 (by omega) (by omega)
      -- the padding needs no work
      refine ⟨i1.1, fun k hk => ?_⟩
      rw [i1.2 k hk]
      have e : tpos N K M r M 0 = r * rowBytes N K M * 8 + N * K * M := by
        rw [tpos, Nat.add_zero, show M * K * N = N * K * M by ac_rfl]
      have e' : (r + 1) * rowBytes N K M * 8 = r * rowBytes N K M * 8 + rowBytes N K M * 8 := by
        rw [Nat.succ_mul, Nat.add_mul]
      rw [e, e']
      by_cases hk1 : k < r * rowBytes N K M * 8 + N * K * M
      · rw [if_pos hk1, if_pos (by omega)]
      · rw [if_neg hk1]
        by_cases hk2 : k < r * rowBytes N K M * 8 + rowBytes N K M * 8
        · rw [if_pos hk2]
          have := h.pad r (k - r * rowBytes N K M * 8) hr (by omega) (by omega)
          rwa [show r * rowBytes N K M * 8 + (k - r * rowBytes N K M * 8) = k by omega] at this
        · rw [if_neg hk2]
    · have : r = R := by omega
      subst this
      rw [if_neg (by rw [← Int.natCast_mul, hd.1]; omega)]
      congr 1
      apply eq_of_bits hd.1
      intro i hi
      rw [hd.2 i (by rw [← hd.1]; exact hi), if_pos (by rw [hd.1] at hi; omega)]
end tiff

theorem rowWidth_eq {N K M : Nat} (h : N * K * M < 9223372036854775808) (hM : 0 < M) :
    (wrap64 (wrap64 ((N : Int) * K) * M)).tdiv 8 + (if (wrap64 (wrap64 ((N : Int) * K) * M)).tmod 8 > 0 then 1 else 0)
      = (rowBytes N K M : Nat) := by
  have hNK : N * K ≤ N * K * M := Nat.le_mul_of_pos_right _ hM
  have w1 : wrap64 ((N : Int) * K) = ((N * K : Nat) : Int) :=
    wrap64_nat _ (Int.natCast_mul _ _) (by omega)
  have w2 : wrap64 (((N * K : Nat) : Int) * M) = ((N * K * M : Nat) : Int) :=
    wrap64_nat _ (Int.natCast_mul _ _) (by omega)
  rw [w1, w2, Int.tdiv_eq_ediv_of_nonneg (by omega), Int.tmod_eq_emod_of_nonneg (by omega), rowBytes]
  clear w1 w2
  split <;> omega

/-! ### No panic -/

theorem tiffComps_total (N K s c : Int) (L : Nat) (hN : 0 < N)
    (h : ∀ i, 0 ≤ i → i < K → 0 ≤ s ∧ K * N ≤ (c * K + i) * N ∧ 0 ≤ K * N ∧
      s + (c * K + i) * N < 9223372036854775808 ∧ 0 ≤ c * K) :
    ∀ (k : Nat) (i : Int) (d : Bytes), 0 ≤ i → i + k = K → d.length = L →
      ∃ d' b, tiffComps N K s c k i d = .ok (d', b) ∧ d'.length = L := by
  intro k
  induction k with
  | zero => intro i d _ _ hd; exact ⟨d, false, rfl, hd⟩
  | succ k ih =>
    intro i d h0 hi hd
    obtain ⟨a1, a2, a3, a4, a5⟩ := h i h0 (by omega)
    have a6 : (c * K + i) ≤ (c * K + i) * N := by
      have := Int.mul_le_mul_of_nonneg_left (show (1 : Int) ≤ N by omega) (show 0 ≤ c * K + i by omega)
      omega
    have e1 : wrap64 (c * K) = c * K := wrap64_id (by omega) (by omega)
    have e2 : wrap64 (c * K + i) = c * K + i := wrap64_id (by clear e1; omega) (by clear e1; omega)
    have e3 : wrap64 ((c * K + i) * N) = (c * K + i) * N := wrap64_id (by clear e1 e2; omega) (by clear e1 e2; omega)
    have e4 : wrap64 (s + (c * K + i) * N) = s + (c * K + i) * N :=
      wrap64_id (by clear e1 e2 e3; omega) (by clear e1 e2 e3; omega)
    have e5 : wrap64 (K * N) = K * N := wrap64_id (by clear e1 e2 e3 e4; omega) (by clear e1 e2 e3 e4; omega)
    have e6 : wrap64 (s + (c * K + i) * N - K * N) = s + (c * K + i) * N - K * N :=
      wrap64_id (by clear e1 e2 e3 e4 e5; omega) (by clear e1 e2 e3 e4 e5; omega)
    rw [tiffComps]
    simp only [e1, e2, e3, e4, e5, e6]
    clear e1 e2 e3 e4 e5 e6
    split
    · exact ⟨d, true, rfl, hd⟩
    · obtain ⟨v1, g1⟩ := getBits_total d (s + (c * K + i) * N - K * N) N (by omega)
      obtain ⟨v2, g2⟩ := getBits_total d (s + (c * K + i) * N) N (by omega)
      obtain ⟨d', g3, g4⟩ := setBits_total d (s + (c * K + i) * N) N (u32 (v2 + v1)) (by omega)
      rw [g1, Res.bind_ok, g2, Res.bind_ok, g3, Res.bind_ok]
      exact ih (i + 1) d' (by omega) (by omega) (by omega)

theorem tiffCols_total (N K M s : Int) (L : Nat) (hN : 0 < N) (hs : 0 ≤ s)
    (hb : 0 < K → s + N * K * M < 9223372036854775808) :
    ∀ (k : Nat) (c : Int) (d : Bytes), 1 ≤ c → c + k ≤ M → d.length = L →
      ∃ d' b, tiffCols N K s k c d = .ok (d', b) ∧ d'.length = L := by
  intro k
  induction k with
  | zero => intro c d _ _ hd; exact ⟨d, false, rfl, hd⟩
  | succ k ih =>
    intro c d h0 hi hd
    rw [tiffCols]
    have hcomp : ∃ d' b, tiffComps N K s c K.toNat 0 d = .ok (d', b) ∧ d'.length = L := by
      by_cases hK : 0 < K
      · apply tiffComps_total N K s c L hN ?_ K.toNat 0 d (by omega) (by omega) hd
        intro i hi0 hiK
        have hKN : 0 ≤ K * N := Int.mul_nonneg (by omega) (by omega)
        have p1 : K * N ≤ c * K * N := by
          have := Int.mul_le_mul_of_nonneg_right h0 hKN
          rw [Int.one_mul, ← Int.mul_assoc] at this; exact this
        have p2 : 0 ≤ i * N := Int.mul_nonneg (by omega) (by omega)
        have p3 : (c * K + i) * N = c * K * N + i * N := Int.add_mul _ _ _
        have p4 : i * N + N ≤ K * N := by
          have := Int.mul_le_mul_of_nonneg_right (show i + 1 ≤ K by omega) (show 0 ≤ N by omega)
          rw [Int.add_mul, Int.one_mul] at this; exact this
        have p5 : c * K * N + K * N ≤ N * K * M := by
          have := Int.mul_le_mul_of_nonneg_right (show c + 1 ≤ M by omega) hKN
          rw [Int.add_mul, Int.one_mul, ← Int.mul_assoc] at this
          rw [show N * K * M = M * (K * N) by rw [Int.mul_comm M, Int.mul_comm K N]]; exact this
        have := hb hK
        exact ⟨hs, by omega, hKN, by omega, Int.mul_nonneg (by omega) (by omega)⟩
      · rw [show K.toNat = 0 by omega]; exact ⟨d, false, rfl, hd⟩
    obtain ⟨d', b, e, hl⟩ := hcomp
    rw [e, Res.bind_ok]
    simp only
    split
    · exact ⟨d', true, rfl, hl⟩
    · exact ih (c + 1) d' (by omega) (by omega) hl

theorem tiffRows_total (N K M W : Int) (L : Nat) (hN : 0 < N) (hW : 0 < W)
    (hb : 0 < K → 1 < M → 8 * L + N * K * M < 9223372036854775808) (hL : L < 1152921504606846976) :
    ∀ (f : Nat) (r : Int) (d : Bytes), 0 ≤ r → d.length = L →
      ∃ d', tiffRows N K M W f r d = .ok d' ∧ d'.length = L := by
  intro f
  induction f with
  | zero => intro r d _ hd; exact ⟨d, rfl, hd⟩
  | succ f ih =>
    intro r d h0 hd
    rw [tiffRows]
    split
    · next hlt =>
      have hrW : 0 ≤ r * W := Int.mul_nonneg h0 (by omega)
      have w : wrap64 (r * W * 8) = r * W * 8 := wrap64_id (by omega) (by omega)
      rw [w]
      clear w
      have hcols : ∃ d' b, tiffCols N K (r * W * 8) (M - 1).toNat 1 d = .ok (d', b) ∧ d'.length = L := by
        by_cases hM : 1 < M
        · exact tiffCols_total N K M (r * W * 8) L hN (by omega) (fun hK => by have := hb hK hM; omega)
            (M - 1).toNat 1 d (by omega) (by omega) hd
        · rw [show (M - 1).toNat = 0 by omega]; exact ⟨d, false, rfl, hd⟩
      obtain ⟨d', b, e, hl⟩ := hcols
      rw [e, Res.bind_ok]
      simp only
      split
      · exact ⟨d', rfl, hl⟩
      · exact ih (r + 1) d' (by omega) hl
    · exact ⟨d, rfl, hd⟩
end Pdf
