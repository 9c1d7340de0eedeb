import Verif.Lemmas.Number
import Mathlib.Tactic.Linarith
import Mathlib.Tactic.FieldSimp
import Mathlib.Data.Rat.Floor
/-!
How far a number with fraction digits is from what its text says.
-/

namespace Pdf
open Pdf.Spec

/-- Rounding moves a number below 2^(53 - j) by at most 2^-j. -/
theorem Rounded.near {q x : Rat} (h : Rounded q (.fin x)) (h0 : 0 ≤ q) {j : Nat} (hj : j ≤ 53) (hq : q * 2 ^ j < 2 ^ 53) : |q - x| ≤ 1 / 2 ^ j := by
  have hp : (0 : Rat) < 2 ^ j := by positivity
  have hn : ((⌊q * 2 ^ j⌋₊ : Nat) : Rat) ≤ q * 2 ^ j := Nat.floor_le (by positivity)
  have hn' : q * 2 ^ j < ⌊q * 2 ^ j⌋₊ + 1 := Nat.lt_floor_add_one _
  generalize ⌊q * 2 ^ j⌋₊ = n at *
  have hd : IsDouble (n / 2 ^ j) := by
    refine ⟨n, 1074 - j, ?_, by omega, ?_⟩
    · exact_mod_cast lt_of_le_of_lt hn hq
    · have e : (2 : Rat) ^ 1074 = 2 ^ j * 2 ^ (1074 - j) := by rw [← pow_add]; congr 1; omega
      rw [e, ← mul_assoc, div_mul_cancel₀ _ hp.ne']
  refine (h.2.closest _ hd).trans ?_
  have e : q - n / 2 ^ j = (q * 2 ^ j - n) / 2 ^ j := by field_simp
  rw [e, abs_of_nonneg (div_nonneg (by linarith) hp.le)]
  exact div_le_div_of_nonneg_right (by linarith) hp.le

theorem sum_near {a q : Rat} {z : F64} (h : Sum (.fin a) q z) (ha : 0 ≤ a) (ha' : a ≤ 2 ^ 32 + 200) (hq : 0 ≤ q) (hq' : q < 1) :
    ∃ v, z = .fin v ∧ 0 ≤ v ∧ |v - (a + q)| ≤ 1 / 2 ^ 19 := by
  have hs : ∀ x : Rat, x ≤ 2 ^ 33 → x < 2 ^ 1024 - 2 ^ 970 := fun x hx => small_lt (hx.trans (pow_le_pow_right₀ (by norm_num) (by norm_num)))
  rcases h with ⟨a', b, e, h1, h2⟩ | ⟨h1 | h1, -⟩
  · cases e
    have n1 := Rounded.near h1 hq (j := 50) (by norm_num) (by norm_num; linarith)
    have b0 := IsDouble.nonneg h1.2.double
    rw [abs_le] at n1
    have hb : b ≤ 2 := by norm_num at n1 ⊢; linarith [n1.1]
    cases z with
    | negZero => exact h2.elim
    | inf s => exact absurd h2.2 (not_le.2 (hs _ (by norm_num at ha' ⊢; linarith)))
    | fin v =>
      have n2 := Rounded.near h2 (by linarith) (j := 20) (by norm_num) (by norm_num at ha' ⊢; linarith)
      refine ⟨v, rfl, IsDouble.nonneg h2.2.double, ?_⟩
      rw [abs_le] at n2 ⊢
      norm_num at n1 n2 ⊢
      constructor <;> linarith [n1.1, n1.2, n2.1, n2.2]
  · cases h1
  · exact absurd h1.2 (not_le.2 (hs _ (by norm_num; linarith)))

theorem pow_ge (i : Nat) : 10 * (i + 1) ≤ 10 ^ (i + 1) ∧ 50 * (i + 2) ≤ 10 ^ (i + 2) := by
  induction i with
  | zero => decide
  | succ i ih => rw [pow_succ, pow_succ 10 (i + 2)]; omega

/-- After the digits `fs`, the double is near to `a + c`, where `c` is at least the fraction, and is more than it unless all
digits after the first are zero. -/
theorem fraction_near {n0 : Nat} (hn : n0 < 2 ^ 32) {x y : F64} {fs : List Nat} (h : FractionDouble x fs y) (hx : x = .fin n0) (hf : ∀ d ∈ fs, d < 10) (hl : fs.length ≤ 100) :
    ∃ v c : Rat, y = .fin v ∧ 0 ≤ v ∧ |v - (n0 + c)| ≤ fs.length / 2 ^ 19 ∧ 0 ≤ c ∧ c ≤ fs.length ∧ (decVal fs : Rat) / 10 ^ fs.length ≤ c ∧
      ((∃ e ∈ fs.tail, e ≠ 0) → (decVal fs : Rat) / 10 ^ fs.length + 8 / 10000 ≤ c) ∧ ((∀ e ∈ fs.tail, e = 0) → c = (decVal fs : Rat) / 10 ^ fs.length) := by
  induction h with
  | nil => exact ⟨n0, 0, hx, by positivity, by simp, le_refl _, by simp, by simp [decVal], by simp, by simp [decVal]⟩
  | @snoc ds y z d h1 h2 ih =>
    rw [List.length_append, List.length_singleton] at hl
    obtain ⟨v, c, rfl, hv, hvc, c0, c1, c2, c3, c4⟩ := ih (fun d hd => hf d (by simp [hd])) (by omega)
    have hd : d ≤ 9 := by have := hf d (by simp); omega
    have hdr : (d : Rat) ≤ 9 := by exact_mod_cast hd
    have hd0 : (0 : Rat) ≤ d := by positivity
    have hlr : (ds.length : Rat) + 1 ≤ 100 := by exact_mod_cast hl
    have hl0 : (0 : Rat) ≤ ds.length := by positivity
    have hnr : (n0 : Rat) ≤ 2 ^ 32 := by exact_mod_cast hn.le
    have hi : (0 : Rat) < 10 * (ds.length + 1) := by linarith
    have q0 : 0 ≤ (d : Rat) / (10 * (ds.length + 1)) := div_nonneg hd0 hi.le
    have q1 : (d : Rat) / (10 * (ds.length + 1)) < 1 := by rw [div_lt_one hi]; linarith
    have hvle : v ≤ 2 ^ 32 + 200 := by
      rw [abs_le] at hvc
      have : (ds.length : Rat) / 2 ^ 19 ≤ 1 := by rw [div_le_one (by positivity)]; norm_num; linarith
      linarith [hvc.2]
    obtain ⟨w, rfl, w0, hw⟩ := sum_near h2 hv hvle q0 q1
    have hP : (0 : Rat) < 10 ^ ds.length := by positivity
    have eD : (decVal (ds ++ [d]) : Rat) / 10 ^ (ds ++ [d]).length = decVal ds / 10 ^ ds.length + d / 10 ^ (ds.length + 1) := by
      rw [decVal_snoc, List.length_append, List.length_singleton, pow_succ]
      push_cast
      field_simp
    obtain ⟨p1, -⟩ := pow_ge ds.length
    have p1r : (10 : Rat) * (ds.length + 1) ≤ 10 ^ (ds.length + 1) := by exact_mod_cast p1
    have step : (d : Rat) / 10 ^ (ds.length + 1) ≤ d / (10 * (ds.length + 1)) := div_le_div_of_nonneg_left hd0 hi p1r
    refine ⟨w, c + d / (10 * (ds.length + 1)), rfl, w0, ?_, by linarith, ?_, ?_, ?_, ?_⟩
    · rw [List.length_append, List.length_singleton]
      push_cast
      rw [abs_le] at *
      rw [add_div]
      constructor <;> linarith [hw.1, hw.2, hvc.1, hvc.2]
    · rw [List.length_append, List.length_singleton]; push_cast; linarith
    · rw [eD]; linarith
    · rintro ⟨e, he, hne⟩
      rw [eD]
      cases ds with
      | nil => simp at he
      | cons b bs =>
        rw [List.cons_append, List.tail_cons, List.mem_append, List.mem_singleton] at he
        rcases he with he | rfl
        · have := c3 ⟨e, he, hne⟩
          linarith
        · obtain ⟨-, p2⟩ := pow_ge bs.length
          simp only [List.length_cons, Nat.cast_add, Nat.cast_one] at *
          have p2r : (50 : Rat) * (bs.length + 2) ≤ 10 ^ (bs.length + 1 + 1) := by exact_mod_cast p2
          have he1 : (1 : Rat) ≤ e := by exact_mod_cast Nat.one_le_iff_ne_zero.2 hne
          have s1 : (e : Rat) / 10 ^ (bs.length + 1 + 1) ≤ e / (50 * (bs.length + 2)) := div_le_div_of_nonneg_left hd0 (by linarith) p2r
          have hb : (0 : Rat) < bs.length + 2 := by linarith
          have s2 : (e : Rat) / (10 * (bs.length + 1 + 1)) - e / (50 * (bs.length + 2)) = e * 8 / 100 / (bs.length + 2) := by
            have : (bs.length : Rat) + 1 + 1 = bs.length + 2 := by ring
            rw [this]; field_simp; norm_num
          have s3 : (8 : Rat) / 10000 ≤ e * 8 / 100 / (bs.length + 2) := by
            rw [le_div_iff₀ hb]; linarith
          linarith
    · intro he
      rw [eD]
      cases ds with
      | nil => simp [decVal] at c4 ⊢; rw [c4]
      | cons b bs =>
        have := he d (by simp)
        subst this
        rw [c4 (fun e h => he e (by simp at h ⊢; exact .inl h))]
        simp

theorem Nearest.rounded {x : Rat} (h : IsDouble x) (hx : x < 2 ^ 1024 - 2 ^ 970) : Rounded x (.fin x) := ⟨hx, Nearest.self h⟩

/-- Zeros behind the first fraction digit change nothing. -/
theorem fraction_zeros {x y z : F64} {d : Nat} (h : FractionDouble x [d] y) (hy : ∃ v, y = .fin v ∧ Rounded v (.fin v)) {fs : List Nat} (hf : ∀ e ∈ fs, e = 0) (k : FractionDouble x (d :: fs) z) : z = y := by
  refine FractionDouble.unique k ?_
  clear k
  obtain ⟨v, rfl, hv⟩ := hy
  induction fs using List.reverseRecOn with
  | nil => exact h
  | append_singleton fs e ih =>
    obtain rfl := hf e (by simp)
    refine FractionDouble.snoc (ds := d :: fs) (ih (fun e he => hf e (by simp [he]))) (.inl ⟨v, 0, rfl, ?_, by rw [add_zero]; exact hv⟩)
    have := nat_rounded (n := 0) (by norm_num)
    simpa using this


/-! ### The nearest double to a number with one fraction digit -/

theorem pow_below {m k j : Nat} {C : Rat} (hm : (m : Rat) < C) (hk : k ≤ j) : (m : Rat) * 2 ^ k < C * 2 ^ j :=
  lt_of_le_of_lt (mul_le_mul_of_nonneg_left (pow_le_pow_right₀ (by norm_num) hk) (by positivity)) (mul_lt_mul_of_pos_right hm (by positivity))

theorem grid_of {x : Rat} {m k b : Nat} (c : Nat) (e : x * 2 ^ (c + (b + 1)) = m * 2 ^ k) (hm : (m : Rat) < 8 * 2 ^ (c + 1)) (hx : 8 ≤ x) : ∃ M : Nat, x * 2 ^ c = M := by
  have hk : b + 1 ≤ k := by
    by_contra hk
    have h1 := pow_below hm (show k ≤ b by omega)
    rw [← e, mul_assoc, ← pow_add, show c + 1 + b = c + (b + 1) by omega] at h1
    exact absurd (lt_of_mul_lt_mul_right h1 (by positivity)) (not_lt.2 hx)
  refine ⟨m * 2 ^ (k - (b + 1)), ?_⟩
  have h6 : (2 : Rat) ^ k = 2 ^ (k - (b + 1)) * 2 ^ (b + 1) := by rw [← pow_add]; congr 1; omega
  rw [pow_add, h6, ← mul_assoc, ← mul_assoc] at e
  push_cast
  exact mul_right_cancel₀ (by positivity) e

theorem IsDouble.grid {x : Rat} (h : IsDouble x) (hx : 8 ≤ x) : ∃ M : Nat, x * 2 ^ 49 = M := by
  obtain ⟨m, k, hm, -, e⟩ := h
  refine grid_of (b := 1024) 49 e ?_ hx
  have : (m : Rat) < 2 ^ 53 := by exact_mod_cast hm
  norm_num at this ⊢
  exact this

theorem midpoint_near {q q' x y : Rat} (hne : y ≠ x) (h1 : |q' - x| ≤ |q' - y|) (h2 : |q - y| ≤ |q - x|) : |q - (x + y) / 2| ≤ |q - q'| := by
  rw [← sq_le_sq] at h1 h2 ⊢
  have e1 : 0 ≤ (y - x) * (y + x - 2 * q') := by nlinarith
  have e2 : 0 ≤ (y - x) * (2 * q - (y + x)) := by nlinarith
  rcases lt_or_gt_of_ne hne with hlt | hgt
  · have a1 : y + x - 2 * q' ≤ 0 := by by_contra h; nlinarith
    have a2 : 2 * q - (y + x) ≤ 0 := by by_contra h; nlinarith
    nlinarith
  · have a1 : 0 ≤ y + x - 2 * q' := by by_contra h; nlinarith
    have a2 : 0 ≤ 2 * q - (y + x) := by by_contra h; nlinarith
    nlinarith

theorem half_lt {n : Nat} (hn : n < 2 ^ 53) : ((n : Rat) + 1) < 2 ^ 1024 - 2 ^ 970 := by
  refine small_lt ?_
  have h1 : (n : Rat) + 1 ≤ 2 ^ 53 := by exact_mod_cast hn
  exact h1.trans (pow_le_pow_right₀ (by norm_num) (by norm_num))

theorem tenths_small : ∀ n : Fin 9, ∀ d : Fin 10, (match roundQ (mkRat d 10) with | .fin b => decide (roundQ ((n : Nat) + b) = roundQ ((n : Nat) + mkRat d 10)) | _ => false) = true := by decide +kernel

theorem tenths_half : roundQ (mkRat 0 10) = .fin 0 ∧ roundQ (mkRat 5 10) = .fin (mkRat 5 10) := by decide +kernel

theorem tenth_grid {n d X Y : Nat} {x y : Rat} (hX : x * 2 ^ 49 = X) (hY : y * 2 ^ 49 = Y) (h1 : -(1 / 2 ^ 53) ≤ (n + d / 10 : Rat) - (x + y) / 2) (h2 : (n + d / 10 : Rat) - (x + y) / 2 ≤ 1 / 2 ^ 53) : d % 5 = 0 := by
  generalize hG : (2 : Rat) ^ 49 = G at *
  have e53 : (1 : Rat) / 2 ^ 53 * (16 * G) = 1 := by rw [← hG]; norm_num
  generalize (1 : Rat) / 2 ^ 53 = u at *
  have hG0 : 0 < G := by rw [← hG]; positivity
  have u1 : (10 * n + d : Rat) * G - 5 * (X + Y) < 1 := by rw [← hX, ← hY]; nlinarith
  have u2 : -1 < (10 * n + d : Rat) * G - 5 * (X + Y) := by rw [← hX, ← hY]; nlinarith
  have hGc : G = ((2 ^ 49 : Int) : Rat) := by rw [← hG]; norm_num
  rw [hGc] at u1 u2
  generalize hH : (2 ^ 49 : Int) = H at *
  have w1 : ((10 * n + d) * H - 5 * (X + Y) : Int) < 1 := by exact_mod_cast u1
  have w2 : (-1 : Int) < (10 * n + d) * H - 5 * (X + Y) := by exact_mod_cast u2
  have w3 : ((10 * n + d) * H : Int) = 5 * (X + Y) := by omega
  have hd : (5 : Int) ∣ (10 * n + d) := by
    have e : (10 * n + d : Int) = 5 * ((10 * n + d) * 225179981368525 - 2 * (X + Y)) := by
      have : (1 : Int) = 5 * 225179981368525 - 2 * H := by rw [← hH]; norm_num
      calc (10 * n + d : Int) = (10 * n + d) * (5 * 225179981368525 - 2 * H) := by rw [← this, mul_one]
        _ = 5 * ((10 * n + d) * 225179981368525) - 2 * ((10 * n + d) * H) := by ring
        _ = _ := by rw [w3]; ring
    exact ⟨_, e⟩
  omega

/-- A number with one fraction digit can be rounded in two steps: first the tenths, then the sum. -/
theorem tenths_rounded {n d : Nat} (hn : n < 2 ^ 53) (hd : d < 10) {b x : Rat} (h1 : Rounded ((d : Rat) / 10) (.fin b)) (h2 : Rounded (n + b) (.fin x)) : Rounded (n + (d : Rat) / 10) (.fin x) := by
  have emk : mkRat d 10 = (d : Rat) / 10 := by rw [Rat.mkRat_eq_div]; rfl
  have hb : roundQ (mkRat d 10) = .fin b := by
    rw [emk]; exact Rounded.unique (roundQ_rounded (by positivity)).1 h1
  have hb0 := IsDouble.nonneg h1.2.double
  by_cases h5 : n < 9
  · have := tenths_small ⟨n, h5⟩ ⟨d, hd⟩
    simp only [hb, decide_eq_true_eq] at this
    have h3 := (roundQ_rounded (q := (n : Rat) + b) (by positivity)).1
    rw [Rounded.unique h2 h3, this, emk]
    exact (roundQ_rounded (by positivity)).1
  have hd9 : (d : Rat) ≤ 9 := by exact_mod_cast (by omega : d ≤ 9)
  have hd0 : (0 : Rat) ≤ d := by positivity
  by_cases he : d = 0 ∨ d = 5
  · have : b = (d : Rat) / 10 := by
      rcases he with rfl | rfl
      · have := tenths_half.1.symm.trans hb; cases this; simp
      · have := tenths_half.2.symm.trans hb; cases this; rw [Rat.mkRat_eq_div]; rfl
    rw [← this]; exact h2
  have hd1 : (1 : Rat) ≤ d := by exact_mod_cast (by omega : 1 ≤ d)
  have hn5 : (9 : Rat) ≤ n := by exact_mod_cast (by omega : 9 ≤ n)
  have hnr : (n : Rat) + 1 ≤ 2 ^ 53 := by exact_mod_cast hn
  have nb := Rounded.near h1 (by positivity) (j := 53) (by norm_num) (by norm_num; linarith)
  have key : ∀ y, IsDouble y → y ≠ x → |((n : Rat) + d / 10) - y| ≤ |((n : Rat) + d / 10) - x| → False := by
    intro y hy hne hle
    have hq : |((n : Rat) + d / 10) - (n + b)| ≤ 1 / 2 ^ 53 := by rw [add_sub_add_left_eq_sub]; exact nb
    have mid := (midpoint_near hne (h2.2.closest y hy) hle).trans hq
    have b1 := h2.2.closest n (nat_double hn)
    rw [add_sub_cancel_left, abs_of_nonneg hb0] at b1
    rw [abs_le] at nb mid hq
    have e53 : (1 : Rat) / 2 ^ 53 ≤ 1 / 100 := by norm_num
    have hqx : |((n : Rat) + d / 10) - x| ≤ b + 1 / 100 := by
      rw [abs_le] at b1 ⊢
      constructor <;> linarith [b1.1, b1.2, hq.1, hq.2]
    have x8 : 8 ≤ x := by
      rw [abs_le] at b1
      linarith [b1.2]
    have y8 : 8 ≤ y := by
      have := hle.trans hqx
      rw [abs_le] at this
      linarith [this.2, nb.1]
    obtain ⟨X, hX⟩ := IsDouble.grid h2.2.double x8
    obtain ⟨Y, hY⟩ := IsDouble.grid hy y8
    have := tenth_grid hX hY mid.1 mid.2
    omega
  exact ⟨lt_of_le_of_lt (by linarith) (half_lt hn), h2.2.double, fun y hy => by
    by_contra hc
    exact key y hy (fun e => by subst e; exact hc (le_refl _)) (not_le.1 hc).le, fun y hy hne he => (key y hy hne he.ge).elim⟩

theorem zeros_value {d : Nat} {fs : List Nat} (h : ∀ e ∈ fs, e = 0) : (decVal (d :: fs) : Rat) / 10 ^ (fs.length + 1) = (d : Rat) / 10 := by
  induction fs using List.reverseRecOn with
  | nil => simp [decVal]
  | append_singleton fs e ih =>
    obtain rfl := h e (by simp)
    rw [← ih fun e he => h e (by simp [he]), ← List.cons_append, decVal_snoc, List.length_append, List.length_singleton, pow_succ 10 (fs.length + 1)]
    push_cast
    field_simp
    simp

theorem whole_exact {ds : List Nat} (hd : ∀ d ∈ ds, d < 10) (hv : decVal ds < 2 ^ 53) : WholeDouble ds (.fin (decVal ds : Nat)) := by
  have := (wholeFold_double ds hd).1
  rwa [show wholeFold ds (.fin 0) = .fin (decVal ds : Nat) from ?_] at this
  clear this
  induction ds using List.reverseRecOn with
  | nil => rfl
  | append_singleton ds c ih =>
    rw [decVal_snoc] at hv ⊢
    have e : wholeFold (ds ++ [c]) (.fin 0) = (wholeFold ds (.fin 0)).mul10Add c := by simp [wholeFold]
    rw [e, ih (fun e he => hd e (by simp [he])) (by omega), mul10Add_int (by omega)]

theorem tenth_le {d : Nat} (hd : d < 10) {b : Rat} (h1 : Rounded ((d : Rat) / 10) (.fin b)) : 0 ≤ b ∧ b ≤ 1 := by
  have hd9 : (d : Rat) ≤ 9 := by exact_mod_cast (by omega : d ≤ 9)
  have nb := Rounded.near h1 (by positivity) (j := 50) (by norm_num) (by norm_num; linarith)
  rw [abs_le] at nb
  refine ⟨IsDouble.nonneg h1.2.double, ?_⟩
  have := nb.1
  norm_num at this
  linarith

theorem tenth_sum {n d : Nat} (hn : n < 2 ^ 53) (hd : d < 10) : ∃ v b : Rat, FractionDouble (.fin (n : Rat)) [d] (.fin v) ∧ Rounded ((d : Rat) / 10) (.fin b) ∧ Rounded (n + b) (.fin v) := by
  have hd9 : (d : Rat) ≤ 9 := by exact_mod_cast (by omega : d ≤ 9)
  have hn0 : (0 : Rat) ≤ n := by positivity
  obtain ⟨b, hb⟩ := roundQ_finite (q := (d : Rat) / 10) (by positivity) (lt_of_le_of_lt (by linarith) (half_lt hn))
  have h1 := (roundQ_rounded (q := (d : Rat) / 10) (by positivity)).1
  rw [hb] at h1
  obtain ⟨b0, b1⟩ := tenth_le hd h1
  obtain ⟨v, hv⟩ := roundQ_finite (q := (n : Rat) + b) (by positivity) (lt_of_le_of_lt (by linarith) (half_lt hn))
  have h2 := (roundQ_rounded (q := (n : Rat) + b) (by positivity)).1
  rw [hv] at h2
  refine ⟨v, b, ?_, h1, h2⟩
  refine FractionDouble.snoc (ds := []) .nil (.inl ⟨n, b, rfl, ?_, h2⟩)
  simpa using h1

theorem below_max {n d : Nat} (hn : n < 2 ^ 53) {b v : Rat} (h1 : Rounded ((d : Rat) / 10) (.fin b)) (hd : d < 10) (h2 : Rounded (n + b) (.fin v)) : v < 2 ^ 1024 - 2 ^ 970 := by
  obtain ⟨b0, b1⟩ := tenth_le hd h1
  have c := h2.2.closest n (nat_double hn)
  rw [add_sub_cancel_left, abs_of_nonneg b0, abs_le] at c
  have hle : (n : Rat) + 1 ≤ 2 ^ 53 := by exact_mod_cast hn
  have : v ≤ 2 ^ 54 := by norm_num at hle ⊢; linarith [c.1]
  exact small_lt (this.trans (pow_le_pow_right₀ (by norm_num) (by norm_num)))

theorem opposite_inj {x y : Rat} {z : F64} (h : Opposite (.fin x) z) (k : Opposite (.fin y) z) : x = y := by
  cases h with
  | zero => cases k; rfl
  | fin h =>
    generalize hz : F64.fin (-x) = z at k
    cases k with
    | zero => cases hz
    | fin k => have := F64.fin.inj hz; linarith

end Pdf
