import Verif.Lemmas.Lex
/-!
Integers and numbers.
-/

namespace Pdf
open Spec

theorem wrap64_isInt64 (x : Int) : IsInt64Of x (wrap64 x) := by
  refine ⟨?_, ?_, (x + 9223372036854775808) / 18446744073709551616, ?_⟩ <;> simp only [wrap64] <;> omega

theorem IsInt64Of.unique {x y z : Int} (h1 : IsInt64Of x y) (h2 : IsInt64Of x z) : y = z := by
  obtain ⟨a, b, k, hk⟩ := h1
  obtain ⟨c, d, m, hm⟩ := h2
  omega

theorem fold_congr (ds : List Nat) : ∀ (v w : Int), (∃ k : Int, v = w + 2 ^ 64 * k) →
    ∃ k : Int, ds.foldl (fun (v : Int) (d : Nat) => v * 10 + (d : Int)) v = ds.foldl (fun (v : Int) (d : Nat) => v * 10 + (d : Int)) w + 2 ^ 64 * k := by
  induction ds with
  | nil => intro v w h; exact h
  | cons d ds ih =>
    rintro v w ⟨k, hk⟩
    simp only [List.foldl_cons]
    exact ih _ _ ⟨10 * k, by omega⟩

theorem decVal_cast (ds : List Nat) (v : Nat) :
    ((ds.foldl (fun v d => v * 10 + d) v : Nat) : Int) = ds.foldl (fun (v : Int) (d : Nat) => v * 10 + (d : Int)) (v : Int) := by
  induction ds generalizing v with
  | nil => rfl
  | cons d ds ih => simp only [List.foldl_cons]; rw [ih]; simp

theorem intGo_digits (ds : List Nat) (hd : ∀ d ∈ ds, d < 10) (r : Bytes) (hr : NoDigit r) : ∀ v : Int,
    -2 ^ 63 ≤ v → v < 2 ^ 63 →
    (intGo (ds.map decDigit ++ r) v).2 = ds.length ∧
      IsInt64Of (ds.foldl (fun (v : Int) (d : Nat) => v * 10 + (d : Int)) v) (intGo (ds.map decDigit ++ r) v).1 := by
  induction ds with
  | nil =>
    intro v h1 h2
    cases r with
    | nil => exact ⟨rfl, h1, h2, 0, by simp [intGo]⟩
    | cons b t =>
      have := hr b t rfl
      rw [← isDigit_iff] at this
      simp only [List.map_nil, List.nil_append, intGo, this, if_false, Bool.false_eq_true]
      exact ⟨rfl, h1, h2, 0, by simp⟩
  | cons d ds ih =>
    intro v h1 h2
    obtain ⟨f1, f2, -⟩ := decDigit_facts (hd d (by simp))
    simp only [List.map_cons, List.cons_append, intGo, f1, if_true, f2, List.foldl_cons, List.length_cons]
    obtain ⟨w1, w2, k, hk⟩ := wrap64_isInt64 (v * 10 + (d : Int))
    obtain ⟨g1, g2, g3, m, hm⟩ := ih (fun x hx => hd x (by simp [hx])) _ w1 w2
    obtain ⟨j, hj⟩ := fold_congr ds _ _ ⟨k, hk⟩
    exact ⟨by rw [g1], g2, g3, m + j, by rw [hj, hm]; omega⟩

/-- A digit string and what follows it. -/
theorem lInt_digits {w : Bytes} (hw : Blank w) (ds : List Nat) (hd : ∀ d ∈ ds, d < 10) (hne : ds ≠ []) (r : Bytes) (hr : NoDigit r) :
    ∃ y, IsInt64Of (decVal ds) y ∧ lInt (w ++ (ds.map decDigit ++ r)) = some (y, w.length + ds.length) := by
  cases ds with
  | nil => exact absurd rfl hne
  | cons d ds =>
    obtain ⟨f1, f2, -, -, f3, f4, -⟩ := decDigit_facts (hd d (by simp))
    have hz : skipWs false ((d :: ds).map decDigit ++ r) = 0 := skipWs_cons f4 f3
    have hd0 := hd d (by simp)
    obtain ⟨g1, g2⟩ := intGo_digits ds (fun x hx => hd x (by simp [hx])) r hr d (by omega) (by omega)
    refine ⟨(intGo (ds.map decDigit ++ r) d).1, ?_, ?_⟩
    · rw [decVal, decVal_cast]; simpa using g2
    · rw [lInt, drop_blank hw, skipWs_blank hw, hz]
      simp only [List.map_cons, List.cons_append, List.drop_zero, f1, if_true, f2]
      simp [g1]; omega

theorem takeWhile_digits : ∀ (l : Bytes), ∃ (ds : List Nat) (r : Bytes), l = ds.map decDigit ++ r ∧ (∀ d ∈ ds, d < 10) ∧ NoDigit r := by
  intro l
  induction l with
  | nil => exact ⟨[], [], rfl, by simp, by intro b t h; cases h⟩
  | cons b t ih =>
    by_cases h : isDigit b = true
    · obtain ⟨ds, r, rfl, h1, h2⟩ := ih
      obtain ⟨n, hn, rfl⟩ := digit_decDigit h
      refine ⟨n :: ds, r, rfl, ?_, h2⟩
      intro d hd
      rcases List.mem_cons.1 hd with rfl | hd
      · exact hn
      · exact h1 d hd
    · refine ⟨[], b :: t, rfl, by simp, ?_⟩
      intro c u hc
      injection hc with h1 h2
      subst h1
      rwa [← isDigit_iff]

/-! ### Exact integers in binary64 -/

theorem log2_lt {n : Nat} (h0 : n ≠ 0) (h : n < 2 ^ 53) : Nat.log2 n ≤ 52 := by
  have := Nat.log2_lt h0 |>.2 h
  omega

theorem roundHalfEven_one (n : Nat) : roundHalfEven n 1 = n := by
  simp [roundHalfEven]
  omega

theorem roundNN_int {n : Nat} (h : n < 2 ^ 53) : roundNN n 1 = .fin (n : Rat) := by
  rw [roundNN]
  by_cases h0 : n = 0
  · subst h0; simp
  rw [if_neg h0]
  have hl := log2_lt h0 h
  have hf : floorLog2 n 1 ≤ 52 := by
    simp only [floorLog2]
    have : Nat.log2 1 = 0 := by decide
    rw [this]
    split <;> omega
  generalize floorLog2 n 1 = L at *
  simp only
  by_cases he : 0 ≤ max (L - 52) (-1074)
  · rw [if_pos he]
    have : (max (L - 52) (-1074)).toNat = 0 := by omega
    rw [this]
    simp only [Nat.pow_zero, Nat.mul_one, roundHalfEven_one]
    refine if_neg ?_
    have hp : (2 : Nat) ^ 53 ≤ 2 ^ 1024 := Nat.pow_le_pow_right (by omega) (by omega)
    exact Nat.not_le.2 (Nat.lt_of_lt_of_le h hp)
  · rw [if_neg he]
    generalize (-(max (L - 52) (-1074))).toNat = k
    rw [roundHalfEven_one]
    congr 1
    have hk : (2 ^ k : Nat) ≠ 0 := by exact Nat.pos_iff_ne_zero.1 (Nat.pow_pos (by omega))
    rw [Rat.mkRat_eq_div]
    have hk' : ((2 ^ k : Nat) : Rat) ≠ 0 := by exact_mod_cast hk
    push_cast
    rw [Rat.div_def, Rat.mul_assoc, Rat.mul_inv_cancel _ (by simpa using hk'), Rat.mul_one]

theorem roundQ_int {n : Nat} (h : n < 2 ^ 53) : roundQ (n : Rat) = .fin (n : Rat) := by
  rw [roundQ]
  have h1 : ((n : Rat)).num = n := Rat.num_natCast n
  have h2 : ((n : Rat)).den = 1 := Rat.den_natCast n
  rw [h1, h2]
  simpa using roundNN_int h

theorem mul10Add_int {n d : Nat} (h : n * 10 + d < 2 ^ 53) : F64.mul10Add (.fin (n : Rat)) d = .fin ((n * 10 + d : Nat) : Rat) := by
  have h1 : ((n : Rat) * 10) = ((n * 10 : Nat) : Rat) := by push_cast; rfl
  simp only [F64.mul10Add]
  rw [h1, roundQ_int (by omega)]
  simp only
  rw [show ((n * 10 : Nat) : Rat) + (d : Rat) = ((n * 10 + d : Nat) : Rat) by push_cast; rfl, roundQ_int h]

theorem fold_ge (ds : List Nat) : ∀ n : Nat, n ≤ ds.foldl (fun v d => v * 10 + d) n := by
  induction ds with
  | nil => intro n; exact Nat.le_refl _
  | cons d ds ih => intro n; have := ih (n * 10 + d); simp only [List.foldl_cons]; omega

/-- A digit run that is not followed by a digit or a point. -/
theorem wholeGo_int (ds : List Nat) (hd : ∀ d ∈ ds, d < 10) (r : Bytes) (hr : NoDigit r) (hp : ∀ u, r ≠ 46 :: u) : ∀ n : Nat,
    ds.foldl (fun v d => v * 10 + d) n < 2 ^ 53 →
    wholeGo (ds.map decDigit ++ r) (.fin (n : Rat)) =
      ((.fin ((ds.foldl (fun v d => v * 10 + d) n : Nat) : Rat), false), ds.length) := by
  induction ds with
  | nil =>
    intro n h
    cases r with
    | nil => rfl
    | cons b t =>
      have h1 := hr b t rfl
      rw [← isDigit_iff] at h1
      have h2 : b ≠ 46 := by rintro rfl; exact hp t rfl
      simp [wholeGo, h1, h2]
  | cons d ds ih =>
    intro n h
    obtain ⟨f1, f2, -⟩ := decDigit_facts (hd d (by simp))
    simp only [List.foldl_cons] at h ⊢
    have hge := fold_ge ds (n * 10 + d)
    simp only [List.map_cons, List.cons_append, wholeGo, f1, if_true, f2]
    rw [mul10Add_int (by omega), ih (fun x hx => hd x (by simp [hx])) _ h]
    simp

/-- A digit run followed by a point. -/
theorem wholeGo_point (ds : List Nat) (hd : ∀ d ∈ ds, d < 10) (r : Bytes) : ∀ n : Nat,
    ds.foldl (fun v d => v * 10 + d) n < 2 ^ 53 →
    wholeGo (ds.map decDigit ++ 46 :: r) (.fin (n : Rat)) =
      ((.fin ((ds.foldl (fun v d => v * 10 + d) n : Nat) : Rat), true), ds.length + 1) := by
  induction ds with
  | nil =>
    intro n h
    simp [wholeGo, isDigit]
  | cons d ds ih =>
    intro n h
    obtain ⟨f1, f2, -⟩ := decDigit_facts (hd d (by simp))
    simp only [List.foldl_cons] at h ⊢
    have hge := fold_ge ds (n * 10 + d)
    simp only [List.map_cons, List.cons_append, wholeGo, f1, if_true, f2]
    rw [mul10Add_int (by omega), ih (fun x hx => hd x (by simp [hx])) _ h]
    simp

/-- The number with the given sign and magnitude. -/
def signed (neg : Bool) (n : Nat) : F64 := if neg then (F64.fin (n : Rat)).neg else .fin (n : Rat)

theorem signed_toInt (neg : Bool) {n : Nat} (h : n < 2 ^ 53) : (signed neg n).toInt = if neg then -(n : Int) else n := by
  have h1 : ((n : Rat)).num = n := Rat.num_natCast n
  have h2 : ((n : Rat)).den = 1 := Rat.den_natCast n
  cases neg
  · simp only [signed, Bool.false_eq_true, if_false, F64.toInt, h1, h2]
    simp
    omega
  · simp only [signed, if_true, F64.neg]
    split
    · next h0 =>
      have : n = 0 := by exact_mod_cast h0
      simp [this, F64.toInt]
    · simp only [F64.toInt, Rat.neg_num, Rat.neg_den, h1, h2]
      simp
      omega

theorem numGo_int {ds : List Nat} (hd : ∀ d ∈ ds, d < 10) {d : Nat} (h0 : d < 10) {r : Bytes} (hr : NoDigit r) (hp : ∀ u, r ≠ 46 :: u)
    (hv : decVal (d :: ds) < 2 ^ 53) :
    numGo (decDigit d) (ds.map decDigit ++ r) = (.fin ((decVal (d :: ds) : Nat) : Rat), ds.length) := by
  obtain ⟨f1, f2, f3, f4, -⟩ := decDigit_facts h0
  have hv' : decVal (d :: ds) = ds.foldl (fun v d => v * 10 + d) d := by simp [decVal]
  rw [hv'] at hv ⊢
  have h10 : F64.mul10Add (.fin 0) d = .fin (d : Rat) := by
    have := mul10Add_int (n := 0) (d := d) (by omega)
    simpa using this
  simp only [numGo, f1, f2, if_true, h10]
  rw [wholeGo_int ds hd r hr hp d hv]
  simp [f3, f4]

theorem numGo_sign {ds : List Nat} (hd : ∀ d ∈ ds, d < 10) {r : Bytes} (hr : NoDigit r) (hp : ∀ u, r ≠ 46 :: u)
    (hv : decVal ds < 2 ^ 53) (neg : Bool) :
    numGo (if neg then 45 else 43) (ds.map decDigit ++ r) = (signed neg (decVal ds), ds.length) := by
  have := wholeGo_int ds hd r hr hp 0 hv
  rw [show ((0 : Nat) : Rat) = 0 from rfl] at this
  have i1 : isDigit 43 = false := by decide
  have i2 : isDigit 45 = false := by decide
  cases neg <;> simp [numGo, i1, i2, this, signed, decVal]

theorem lNumber_int {w sg r : Bytes} {ds : List Nat} {neg : Bool} (hw : Blank w) (hs : Sign neg sg) (hd : ∀ d ∈ ds, d < 10) (hne : ds ≠ [])
    (hr : NoDigit r) (hp : ∀ u, r ≠ 46 :: u) (hv : decVal ds < 2 ^ 53) :
    lNumber (w ++ (sg ++ (ds.map decDigit ++ r))) = (signed neg (decVal ds), w.length + sg.length + ds.length) := by
  simp only [lNumber]
  rw [drop_blank hw, skipWs_blank hw]
  have hsigned : ∀ neg : Bool, ∀ b : UInt8, b = (if neg then 45 else 43) → (match List.drop (skipWs false (b :: (ds.map decDigit ++ r))) (b :: (ds.map decDigit ++ r)) with
      | [] => (F64.fin 0, w.length + skipWs false (b :: (ds.map decDigit ++ r)))
      | b' :: t => if b' == ch%'-' || isDigit b' || b' == ch%'.' || b' == ch%'+' then
            ((numGo b' t).1, w.length + skipWs false (b :: (ds.map decDigit ++ r)) + 1 + (numGo b' t).2)
          else (.fin 0, w.length + skipWs false (b :: (ds.map decDigit ++ r)))) =
      (signed neg (decVal ds), w.length + [b].length + ds.length) := by
    intro neg b hb
    have hz : skipWs false (b :: (ds.map decDigit ++ r)) = 0 := by
      subst hb; cases neg <;> exact skipWs_cons (by decide) (by decide)
    rw [hz]
    simp only [List.drop_zero]
    rw [if_pos (by subst hb; cases neg <;> decide), hb, numGo_sign hd hr hp hv neg]
    simp
  cases hs with
  | none =>
    cases ds with
    | nil => exact absurd rfl hne
    | cons d ds =>
      obtain ⟨f1, -, -, -, f3, f4, -⟩ := decDigit_facts (hd d (by simp))
      have hz : skipWs false ((d :: ds).map decDigit ++ r) = 0 := skipWs_cons f4 f3
      simp only [List.nil_append]
      rw [hz]
      simp only [List.map_cons, List.cons_append, List.drop_zero]
      rw [if_pos (by simp [f1]), numGo_int (fun x hx => hd x (by simp [hx])) (hd d (by simp)) hr hp hv]
      simp [signed]; omega
  | plus => exact hsigned false 43 rfl
  | minus => exact hsigned true 45 rfl

end Pdf
