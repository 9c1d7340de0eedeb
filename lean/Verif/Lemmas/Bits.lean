import Verif.Lemmas.Filters
namespace Pdf
open Spec

/-! ### Bit fields -/

theorem field_testBit (d : Bytes) (p : Nat) : ∀ n k, (field d p n).testBit k =
    (decide (k < n) && bit d (p + (n - 1 - k))) := by
  intro n
  induction n with
  | zero => intro k; simp [field]
  | succ n ih =>
    intro k
    rw [field, Nat.mul_comm]
    have hb : (bit d (p + n)).toNat < 2 ^ 1 := by cases bit d (p + n) <;> simp
    have := Nat.testBit_two_pow_mul_add (field d p n) hb k
    rw [show 2 ^ 1 * field d p n = field d p n * 2 by omega] at this
    rw [this]
    cases k with
    | zero => cases h : bit d (p + n) <;> simp [h]
    | succ k =>
      rw [if_neg (by omega), Nat.add_sub_cancel, ih]
      congr 1
      · simp
      · congr 2; omega

theorem field_lt (d : Bytes) (p n : Nat) : field d p n < 2 ^ n := by
  apply Nat.lt_pow_two_of_testBit
  intro i hi
  rw [field_testBit]; simp; omega

theorem bit_eq_field (d : Bytes) (p n i : Nat) (hi : i < n) :
    bit d (p + i) = (field d p n).testBit (n - 1 - i) := by
  rw [field_testBit, show n - 1 - (n - 1 - i) = i by omega]
  simp; omega

theorem field_congr {d e : Bytes} {p q n : Nat} (h : ∀ i, i < n → bit d (p + i) = bit e (q + i)) :
    field d p n = field e q n := by
  induction n with
  | zero => rfl
  | succ n ih => rw [field, field, ih (fun i hi => h i (by omega)), h n (by omega)]

/-- The 32-bit word at byte `q`, zeros past the end. -/
def word (d : Bytes) (q : Nat) : Nat :=
  (((d.getD q 0).toNat * 256 + (d.getD (q + 1) 0).toNat) * 256 + (d.getD (q + 2) 0).toNat) * 256
    + (d.getD (q + 3) 0).toNat

theorem word_lt (d : Bytes) (q : Nat) : word d q < 4294967296 := by
  have := (d.getD q 0).toNat_lt; have := (d.getD (q + 1) 0).toNat_lt
  have := (d.getD (q + 2) 0).toNat_lt; have := (d.getD (q + 3) 0).toNat_lt
  simp only [word]; omega

theorem getBitsLoop_step (d : Bytes) (q : Nat) (k i v : Nat) (hv : v < 16777216) :
    getBitsLoop d q (k + 1) i v = getBitsLoop d q k (i + 1) (v * 256 + (d.getD (q + i) 0).toNat) := by
  have h8 := (d.getD (q + i) 0).toNat_lt
  rw [getBitsLoop]
  split
  · next h =>
    rw [if_neg (by omega)]
    rw [show ((q : Int) + i).toNat = q + i by omega]
    simp only [u32]
    rw [Nat.mod_eq_of_lt (a := v * 256) (by omega), Nat.mod_eq_of_lt (by omega)]
  · next h =>
    have : d.getD (q + i) 0 = 0 := by
      rw [List.getD_eq_getElem?_getD, List.getElem?_eq_none (by omega)]; rfl
    simp only [u32, this]
    rw [Nat.mod_eq_of_lt (a := v * 256) (by omega), UInt8.toNat_zero, Nat.add_zero (v * 256)]

theorem getBitsLoop_word (d : Bytes) (q : Nat) : getBitsLoop d q 4 0 0 = .ok (word d q) := by
  have h0 := (d.getD q 0).toNat_lt; have h1 := (d.getD (q + 1) 0).toNat_lt
  have h2 := (d.getD (q + 2) 0).toNat_lt
  rw [getBitsLoop_step _ _ _ _ _ (by omega), getBitsLoop_step _ _ _ _ _ (by simp only [Nat.add_zero, Nat.zero_add, Nat.zero_mul]; omega),
    getBitsLoop_step _ _ _ _ _ (by simp only [Nat.add_zero, Nat.zero_add, Nat.zero_mul]; omega), getBitsLoop_step _ _ _ _ _ (by simp only [Nat.add_zero, Nat.zero_add, Nat.zero_mul, Nat.reduceAdd]; omega)]
  simp [getBitsLoop, word]

theorem byte_testBit_ge (b : UInt8) (k : Nat) (h : 8 ≤ k) : b.toNat.testBit k = false := by
  apply Nat.testBit_lt_two_pow
  exact Nat.lt_of_lt_of_le b.toNat_lt (Nat.pow_le_pow_right (by decide) h)

theorem word_testBit (d : Bytes) (q j : Nat) (hj : j < 32) :
    (word d q).testBit (31 - j) = bit d (8 * q + j) := by
  have step : ∀ (a : Nat) (b : UInt8) k, (a * 256 + b.toNat).testBit k =
      if k < 8 then b.toNat.testBit k else a.testBit (k - 8) := by
    intro a b k
    have := Nat.testBit_two_pow_mul_add a (i := 8) b.toNat_lt k
    rwa [Nat.mul_comm] at this
  simp only [word, step, bit]
  rw [show (8 * q + j) / 8 = q + j / 8 by omega, show (8 * q + j) % 8 = j % 8 by omega]
  rcases (show j / 8 = 0 ∨ j / 8 = 1 ∨ j / 8 = 2 ∨ j / 8 = 3 by omega) with h | h | h | h
  · rw [if_neg (by omega), if_neg (by omega), if_neg (by omega), h]; congr 1; omega
  · rw [if_neg (by omega), if_neg (by omega), if_pos (by omega), h]; congr 1; omega
  · rw [if_neg (by omega), if_pos (by omega), h]; congr 1; omega
  · rw [if_pos (by omega), h]; congr 1; omega

theorem getBits_field (d : Bytes) (p n : Nat) (h1 : 1 ≤ n) (hn : p % 8 + n ≤ 32) :
    getBits d p n = .ok (field d p n) := by
  have hq : (p : Int).tdiv 8 = (p / 8 : Nat) := by rw [Int.tdiv_eq_ediv_of_nonneg (by omega)]; omega
  have hm : (p : Int).tmod 8 = (p % 8 : Nat) := by rw [Int.tmod_eq_emod_of_nonneg (by omega)]; omega
  rw [getBits, hq, hm, getBitsLoop_word, Res.bind_ok]
  congr 1
  rw [shl32, if_neg (by omega), shr32, if_neg (by omega), u32,
    show ((p % 8 : Nat) : Int).toNat = p % 8 by omega, show (32 - (n : Int)).toNat = 32 - n by omega]
  apply Nat.eq_of_testBit_eq
  intro k
  rw [Nat.testBit_div_two_pow, show 4294967296 = 2 ^ 32 by decide, Nat.testBit_mod_two_pow, Nat.testBit_mul_two_pow,
    field_testBit]
  by_cases hk : k < n
  · have e := word_testBit d (p / 8) (p % 8 + (n - 1 - k)) (by omega)
    rw [show 31 - (p % 8 + (n - 1 - k)) = k + (32 - n) - p % 8 by omega,
      show 8 * (p / 8) + (p % 8 + (n - 1 - k)) = p + (n - 1 - k) by omega] at e
    rw [← e]
    have h1 : k + (32 - n) < 32 := by omega
    have h2 : k + (32 - n) ≥ p % 8 := by omega
    simp [h1, h2, hk]
  · have h1 : ¬ k + (32 - n) < 32 := by omega
    simp [h1, hk]

/-- Replacing the `n` bits of `x` at `s`. -/
theorem testBit_replace {x v s n : Nat} (hx : x < 4294967296) (hsn : s + n ≤ 32) :
    ∃ y, y < 4294967296 ∧
      u32 (x + u32 (v % 2 ^ n * 2 ^ s) + (4294967296 - (x &&& u32 ((2 ^ n - 1) * 2 ^ s)))) = y ∧
      ∀ k, y.testBit k = if s ≤ k ∧ k < s + n then v.testBit (k - s) else x.testBit k := by
  have hand : x &&& ((2 ^ n - 1) * 2 ^ s) = x / 2 ^ s % 2 ^ n * 2 ^ s := by
    apply Nat.eq_of_testBit_eq
    intro k
    rw [Nat.testBit_and, Nat.testBit_mul_two_pow, Nat.testBit_two_pow_sub_one, Nat.testBit_mul_two_pow,
      Nat.testBit_mod_two_pow, Nat.testBit_div_two_pow]
    by_cases h : s ≤ k
    · rw [show k - s + s = k by omega]; simp [h, Bool.and_comm]
    · simp [h]
  have h32 : 2 ^ s * 2 ^ n ≤ 4294967296 := by
    rw [← Nat.pow_add]; exact Nat.pow_le_pow_right (by decide) hsn
  have hs : 0 < 2 ^ s := Nat.pow_pos (by decide)
  have hn : 0 < 2 ^ n := Nat.pow_pos (by decide)
  -- x = A * 2^(s+n) + F * 2^s + B
  have hx1 : x = 2 ^ s * (x / 2 ^ s) + x % 2 ^ s := (Nat.div_add_mod _ _).symm
  have hx2 : x / 2 ^ s = 2 ^ n * (x / 2 ^ s / 2 ^ n) + x / 2 ^ s % 2 ^ n := (Nat.div_add_mod _ _).symm
  have hB : x % 2 ^ s < 2 ^ s := Nat.mod_lt _ hs
  have hF : x / 2 ^ s % 2 ^ n < 2 ^ n := Nat.mod_lt _ hn
  have hV : v % 2 ^ n < 2 ^ n := Nat.mod_lt _ hn
  generalize hA' : x / 2 ^ s / 2 ^ n = A at *
  have mulF : ∀ F, F < 2 ^ n → F * 2 ^ s + 2 ^ s ≤ 2 ^ s * 2 ^ n := by
    intro F h
    rw [show F * 2 ^ s + 2 ^ s = 2 ^ s * (F + 1) by rw [Nat.mul_succ, Nat.mul_comm]]
    exact Nat.mul_le_mul_left _ h
  have e1 : u32 (v % 2 ^ n * 2 ^ s) = v % 2 ^ n * 2 ^ s := by
    apply Nat.mod_eq_of_lt; have := mulF _ hV; omega
  have e2 : u32 ((2 ^ n - 1) * 2 ^ s) = (2 ^ n - 1) * 2 ^ s := by
    apply Nat.mod_eq_of_lt; have := mulF _ (show 2 ^ n - 1 < 2 ^ n by omega); omega
  rw [e1, e2, hand]
  have hxx : x = 2 ^ s * (2 ^ n * A + x / 2 ^ s % 2 ^ n) + x % 2 ^ s := by rw [← hx2]; exact hx1
  generalize hFe : x / 2 ^ s % 2 ^ n = F at *
  generalize hBe : x % 2 ^ s = B at *
  generalize hVe : v % 2 ^ n = V at *
  have hmul : 2 ^ s * (2 ^ n * A + F) = 2 ^ s * 2 ^ n * A + F * 2 ^ s := by
    rw [Nat.mul_add, ← Nat.mul_assoc, Nat.mul_comm (2 ^ s) F]
  have hmulV : 2 ^ s * (2 ^ n * A + V) = 2 ^ s * 2 ^ n * A + V * 2 ^ s := by
    rw [Nat.mul_add, ← Nat.mul_assoc, Nat.mul_comm (2 ^ s) V]
  have hAlt : 2 ^ s * 2 ^ n * A + 2 ^ s * 2 ^ n ≤ 4294967296 := by
    have h2 : 4294967296 = 2 ^ s * 2 ^ n * 2 ^ (32 - (s + n)) := by
      rw [← Nat.pow_add, ← Nat.pow_add, show s + n + (32 - (s + n)) = 32 by omega]
    rw [h2, ← Nat.mul_succ]
    apply Nat.mul_le_mul_left
    have : 2 ^ s * 2 ^ n * A < 2 ^ s * 2 ^ n * 2 ^ (32 - (s + n)) := by rw [← h2]; omega
    exact Nat.lt_of_mul_lt_mul_left this
  have hmF := mulF F hF
  have hmV := mulF V hV
  refine ⟨2 ^ s * (2 ^ n * A + V) + B, by omega, ?_, ?_⟩
  · simp only [u32]
    rw [show x + V * 2 ^ s + (4294967296 - F * 2 ^ s) = 2 ^ s * (2 ^ n * A + V) + B + 4294967296 by omega,
      Nat.add_mod_right, Nat.mod_eq_of_lt (by omega)]
  · intro k
    rw [Nat.testBit_two_pow_mul_add _ hB]
    by_cases h1 : k < s
    · rw [if_pos h1, if_neg (by omega), ← hBe, Nat.testBit_mod_two_pow]; simp [h1]
    · rw [if_neg h1, Nat.testBit_two_pow_mul_add _ hV]
      by_cases h2 : k < s + n
      · rw [if_pos (by omega), if_pos (by omega), ← hVe, Nat.testBit_mod_two_pow]
        have : k - s < n := by omega
        simp [this]
      · rw [if_neg (by omega), if_neg (by omega), ← hA', Nat.testBit_div_two_pow, Nat.testBit_div_two_pow]
        congr 1; omega

/-- Byte `i` of `d` with the four bytes of `y` written at `q`. -/
theorem setBitsLoop_spec (y : Nat) (q : Nat) : ∀ (k i : Nat) (d : Bytes), i + k = 4 →
    ∃ d', setBitsLoop y q k i d = .ok d' ∧ d'.length = d.length ∧
      ∀ j, d'.getD j 0 = if q + i ≤ j ∧ j < q + 4 ∧ j < d.length then
        UInt8.ofNat (y / 2 ^ (24 - 8 * (j - q))) else d.getD j 0 := by
  intro k
  induction k with
  | zero => intro i d hi; exact ⟨d, rfl, rfl, fun j => by rw [if_neg (by omega)]⟩
  | succ k ih =>
    intro i d hi
    rw [setBitsLoop]
    split
    · next h =>
      rw [if_neg (by omega)]
      obtain ⟨d', h1, h2, h3⟩ := ih (i + 1) (d.set ((q : Int) + i).toNat
        (UInt8.ofNat (shr32 y (32 - (i + 1) * 8)))) (by omega)
      refine ⟨d', h1, by rw [h2, List.length_set], ?_⟩
      intro j
      rw [h3 j, List.length_set, show ((q : Int) + i).toNat = q + i by omega]
      by_cases hj : q + i = j
      · subst hj
        rw [if_neg (by omega), if_pos (by omega)]
        have : (d.set (q + i) (UInt8.ofNat (shr32 y (32 - (↑i + 1) * 8)))).getD (q + i) 0
            = UInt8.ofNat (shr32 y (32 - (↑i + 1) * 8)) := by
          rw [List.getD_eq_getElem?_getD, List.getElem?_set_self (by omega)]; rfl
        rw [this, shr32, if_neg (by omega), show (32 - ((i : Int) + 1) * 8).toNat = 24 - 8 * (q + i - q) by omega]
      · have : (d.set (q + i) (UInt8.ofNat (shr32 y (32 - (↑i + 1) * 8)))).getD j 0 = d.getD j 0 := by
          rw [List.getD_eq_getElem?_getD, List.getElem?_set_ne hj, List.getD_eq_getElem?_getD]
        rw [this]
        by_cases hc : q + i ≤ j ∧ j < q + 4 ∧ j < d.length
        · rw [if_pos hc, if_pos (by omega)]
        · rw [if_neg hc, if_neg (by omega)]
    · next h =>
      refine ⟨d, rfl, rfl, ?_⟩
      intro j
      rw [if_neg (by omega)]

theorem setBits_spec (d : Bytes) (p n v : Nat) (h1 : 1 ≤ n) (hn : p % 8 + n ≤ 32) (hn2 : n < 32) :
    ∃ d', setBits d p n v = .ok d' ∧ d'.length = d.length ∧
      ∀ i, bit d' i = if p ≤ i ∧ i < p + n ∧ i < 8 * d.length then v.testBit (p + n - 1 - i) else bit d i := by
  have hq : (p : Int).tdiv 8 = (p / 8 : Nat) := by rw [Int.tdiv_eq_ediv_of_nonneg (by omega)]; omega
  have hm : (p : Int).tmod 8 = (p % 8 : Nat) := by rw [Int.tmod_eq_emod_of_nonneg (by omega)]; omega
  have hg : getBits d ((p : Int).tdiv 8 * 8) 32 = .ok (word d (p / 8)) := by
    have e : ((p : Int).tdiv 8 * 8).tdiv 8 = (p / 8 : Nat) := by rw [hq, Int.tdiv_eq_ediv_of_nonneg (by omega)]; omega
    have e2 : ((p : Int).tdiv 8 * 8).tmod 8 = 0 := by rw [hq, Int.tmod_eq_emod_of_nonneg (by omega)]; omega
    rw [getBits, e, e2, getBitsLoop_word, Res.bind_ok]
    have := word_lt d (p / 8)
    simp [shl32, shr32, u32, Nat.mod_eq_of_lt this]
  rw [setBits, hg, Res.bind_ok, hq, hm]
  have hs : (32 - (n : Int) - (p % 8 : Nat)) = ((32 - n - p % 8 : Nat) : Int) := by omega
  have hmax : shl32 1 (n : Int) = 2 ^ n := by
    rw [shl32, if_neg (by omega), u32, Nat.one_mul, Int.toNat_natCast]
    exact Nat.mod_eq_of_lt (by have := Nat.pow_lt_pow_right (a := 2) (by decide) hn2; omega)
  have hlt : 2 ^ n < 4294967296 := by have := Nat.pow_lt_pow_right (a := 2) (by decide) hn2; omega
  have hpos : 0 < 2 ^ n := Nat.pow_pos (by decide)
  have hmm : u32 (2 ^ n + 4294967295) = 2 ^ n - 1 := by
    rw [u32, show 2 ^ n + 4294967295 = (2 ^ n - 1) + 4294967296 by omega, Nat.add_mod_right, Nat.mod_eq_of_lt (by omega)]
  simp only [hs, hmax, hmm]
  rw [show ∀ x, shl32 x ((32 - n - p % 8 : Nat) : Int) = u32 (x * 2 ^ (32 - n - p % 8)) from
    fun x => by rw [shl32, if_neg (by omega), Int.toNat_natCast]]
  rw [show ∀ x, shl32 x ((32 - n - p % 8 : Nat) : Int) = u32 (x * 2 ^ (32 - n - p % 8)) from
    fun x => by rw [shl32, if_neg (by omega), Int.toNat_natCast]]
  obtain ⟨y, hy, e, hbits⟩ := testBit_replace (x := word d (p / 8)) (v := v) (s := 32 - n - p % 8) (n := n)
    (word_lt _ _) (by omega)
  rw [e]
  obtain ⟨d', hd1, hd2, hd3⟩ := setBitsLoop_spec y (p / 8) 4 0 d rfl
  refine ⟨d', hd1, hd2, ?_⟩
  intro i
  simp only [bit]
  rw [hd3]
  by_cases hc : p / 8 + 0 ≤ i / 8 ∧ i / 8 < p / 8 + 4 ∧ i / 8 < d.length
  · rw [if_pos hc]
    have hyb : (UInt8.ofNat (y / 2 ^ (24 - 8 * (i / 8 - p / 8)))).toNat.testBit (7 - i % 8)
        = y.testBit (31 - (i - 8 * (p / 8))) := by
      rw [UInt8.toNat_ofNat', Nat.testBit_mod_two_pow, Nat.testBit_div_two_pow]
      have : 7 - i % 8 < 8 := by omega
      simp only [this, decide_true, Bool.true_and]
      exact congrArg y.testBit (by omega)
    rw [hyb, hbits]
    by_cases hin : p ≤ i ∧ i < p + n
    · rw [if_pos (by omega), if_pos (by omega)]; exact congrArg v.testBit (by omega)
    · rw [if_neg (by omega), if_neg (by omega), word_testBit _ _ _ (by omega)]
      simp only [bit]
      rw [show 8 * (p / 8) + (i - 8 * (p / 8)) = i by omega]
  · rw [if_neg hc, if_neg (by omega)]

theorem getBitsLoop_total (d : Bytes) (q : Int) (hq : 0 ≤ q) : ∀ k i v, ∃ r, getBitsLoop d q k i v = .ok r := by
  intro k
  induction k with
  | zero => intro i v; exact ⟨v, rfl⟩
  | succ k ih =>
    intro i v
    rw [getBitsLoop]
    split
    · rw [if_neg (by omega)]; exact ih _ _
    · exact ih _ _

theorem getBits_total (d : Bytes) (p n : Int) (hp : -8 < p) : ∃ v, getBits d p n = .ok v := by
  have hq : 0 ≤ p.tdiv 8 := by
    rcases Int.lt_or_le p 0 with h | h
    · rw [show p = -(-p) by omega, Int.neg_tdiv, Int.tdiv_eq_ediv_of_nonneg (by omega)]; omega
    · rw [Int.tdiv_eq_ediv_of_nonneg h]; omega
  obtain ⟨r, hr⟩ := getBitsLoop_total d _ hq 4 0 0
  exact ⟨_, by rw [getBits, hr, Res.bind_ok]⟩

theorem setBitsLoop_total (y : Nat) (q : Int) (hq : 0 ≤ q) : ∀ k i d, ∃ d' : Bytes,
    setBitsLoop y q k i d = .ok d' ∧ d'.length = d.length := by
  intro k
  induction k with
  | zero => intro i d; exact ⟨d, rfl, rfl⟩
  | succ k ih =>
    intro i d
    rw [setBitsLoop]
    split
    · rw [if_neg (by omega)]
      obtain ⟨d', h1, h2⟩ := ih (i + 1) (d.set (q + i).toNat (UInt8.ofNat (shr32 y (32 - (i + 1) * 8))))
      exact ⟨d', h1, by rw [h2, List.length_set]⟩
    · exact ⟨d, rfl, rfl⟩

theorem setBits_total (d : Bytes) (p n : Int) (v : Nat) (hp : 0 ≤ p) :
    ∃ d', setBits d p n v = .ok d' ∧ d'.length = d.length := by
  have hq : 0 ≤ p.tdiv 8 := by rw [Int.tdiv_eq_ediv_of_nonneg hp]; omega
  obtain ⟨r, hr⟩ := getBits_total d (p.tdiv 8 * 8) 32 (by omega)
  rw [setBits, hr, Res.bind_ok]
  exact setBitsLoop_total _ _ hq _ _ _

theorem eq_of_bits {a b : Bytes} (hl : a.length = b.length) (h : ∀ i, i < 8 * a.length → bit a i = bit b i) : a = b := by
  apply List.ext_getElem hl
  intro i h1 h2
  apply UInt8.toNat_inj.1
  apply Nat.eq_of_testBit_eq
  intro k
  by_cases hk : k < 8
  · have := h (8 * i + (7 - k)) (by omega)
    simp only [bit] at this
    rw [show (8 * i + (7 - k)) / 8 = i by omega, show 7 - (8 * i + (7 - k)) % 8 = k by omega] at this
    simpa [h1, h2] using this
  · rw [byte_testBit_ge _ _ (by omega), byte_testBit_ge _ _ (by omega)]

end Pdf
