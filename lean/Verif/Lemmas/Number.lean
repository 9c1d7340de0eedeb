import Verif.Lemmas.Double
import Verif.Lemmas.Num
import Mathlib.Data.List.Induction
/-!
`ReadNumber` on texts of any length.
-/

namespace Pdf
open Pdf.Spec

/-- Digits before the point. -/
def wholeFold (ds : List Nat) (x : F64) : F64 := ds.foldl (fun x d => x.mul10Add d) x

/-- Digits after the point. -/
def fracFold : List Nat → F64 → Nat → F64
  | [], x, _ => x
  | d :: ds, x, i => fracFold ds (x.addFrac d i) (i + 1)

theorem wholeGo_fold (ds : List Nat) (hd : ∀ d ∈ ds, d < 10) (r : Bytes) : ∀ x, wholeGo (ds.map decDigit ++ r) x = ((wholeGo r (wholeFold ds x)).1, ds.length + (wholeGo r (wholeFold ds x)).2) := by
  induction ds with
  | nil => intro x; simp [wholeFold]
  | cons d ds ih =>
    intro x
    obtain ⟨f1, f2, -⟩ := decDigit_facts (hd d (by simp))
    simp only [List.map_cons, List.cons_append, wholeGo, f1, if_true, f2]
    rw [ih (fun x hx => hd x (by simp [hx]))]
    simp only [wholeFold, List.foldl_cons, List.length_cons]
    congr 1
    omega

theorem fracGo_fold (ds : List Nat) (hd : ∀ d ∈ ds, d < 10) {r : Bytes} (hr : NoDigit r) : ∀ x i, fracGo (ds.map decDigit ++ r) x i = (fracFold ds x i, ds.length) := by
  induction ds with
  | nil =>
    intro x i
    cases r with
    | nil => rfl
    | cons b t =>
      have := hr b t rfl
      rw [← isDigit_iff] at this
      simp [fracGo, fracFold, this]
  | cons d ds ih =>
    intro x i
    obtain ⟨f1, f2, -⟩ := decDigit_facts (hd d (by simp))
    simp only [List.map_cons, List.cons_append, fracGo, f1, if_true, f2]
    rw [ih (fun x hx => hd x (by simp [hx]))]
    simp [fracFold]

/-- What follows the first byte. -/
theorem tail_number (ds : List Nat) (hd : ∀ d ∈ ds, d < 10) (fr : Option (List Nat)) (hf : ∀ fs, fr = some fs → ∀ d ∈ fs, d < 10) {r : Bytes} (hr : NoDigit r) (hp : fr = none → ∀ u, r ≠ 46 :: u) (x : F64) :
    (if (wholeGo (numberText ds fr ++ r) x).1.2 then fracGo ((numberText ds fr ++ r).drop (wholeGo (numberText ds fr ++ r) x).2) (wholeGo (numberText ds fr ++ r) x).1.1 1
      else ((wholeGo (numberText ds fr ++ r) x).1.1, 0)).1 = fracFold (fr.getD []) (wholeFold ds x) 1 ∧
    (wholeGo (numberText ds fr ++ r) x).2 + (if (wholeGo (numberText ds fr ++ r) x).1.2 then fracGo ((numberText ds fr ++ r).drop (wholeGo (numberText ds fr ++ r) x).2) (wholeGo (numberText ds fr ++ r) x).1.1 1
      else ((wholeGo (numberText ds fr ++ r) x).1.1, 0)).2 = (numberText ds fr).length := by
  cases fr with
  | none =>
    have h : ∀ y, wholeGo r y = ((y, false), 0) := by
      intro y
      cases r with
      | nil => rfl
      | cons b t =>
        have h1 := hr b t rfl
        rw [← isDigit_iff] at h1
        have h2 : b ≠ 46 := by rintro rfl; exact hp rfl t rfl
        simp [wholeGo, h1, h2]
    simp only [numberText, wholeGo_fold ds hd, h]
    simp [fracFold]
  | some fs =>
    have h : ∀ y, wholeGo (46 :: fs.map decDigit ++ r) y = ((y, true), 1) := by
      intro y
      simp [wholeGo, isDigit]
    have hdrop : List.drop (ds.length + 1) (ds.map decDigit ++ (46 :: fs.map decDigit ++ r)) = fs.map decDigit ++ r := by
      rw [List.drop_append]; simp
    simp only [numberText, List.append_assoc, wholeGo_fold ds hd, h, hdrop, if_true, fracGo_fold fs (hf fs rfl) hr]
    simp
    omega

theorem lNumber_text {w sg r : Bytes} {ds : List Nat} {neg : Bool} (hw : Blank w) (hs : Sign neg sg) (hd : ∀ d ∈ ds, d < 10) (fr : Option (List Nat)) (hf : ∀ fs, fr = some fs → ∀ d ∈ fs, d < 10)
    (hne : sg ++ numberText ds fr ≠ []) (hr : NoDigit r) (hp : fr = none → ∀ u, r ≠ 46 :: u) :
    lNumber (w ++ (sg ++ (numberText ds fr ++ r))) = (if neg then (fracFold (fr.getD []) (wholeFold ds (.fin 0)) 1).neg else fracFold (fr.getD []) (wholeFold ds (.fin 0)) 1, w.length + sg.length + (numberText ds fr).length) := by
  simp only [lNumber]
  rw [drop_blank hw, skipWs_blank hw]
  have i1 : isDigit 43 = false := by decide
  have i2 : isDigit 45 = false := by decide
  cases hs with
  | plus =>
    obtain ⟨t1, t2⟩ := tail_number ds hd fr hf hr hp (.fin 0)
    rw [List.singleton_append, skipWs_cons (by decide) (by decide), List.drop_zero]
    dsimp only
    rw [if_pos (by decide)]
    simp only [numGo, i1, Bool.false_eq_true, if_false, show ((43 : UInt8) == ch%'.') = false by decide, show ((43 : UInt8) == ch%'-') = false by decide]
    rw [t1, t2]
    simp
  | minus =>
    obtain ⟨t1, t2⟩ := tail_number ds hd fr hf hr hp (.fin 0)
    rw [List.singleton_append, skipWs_cons (by decide) (by decide), List.drop_zero]
    dsimp only
    rw [if_pos (by decide)]
    simp only [numGo, i2, Bool.false_eq_true, if_false, show ((45 : UInt8) == ch%'.') = false by decide, show ((45 : UInt8) == ch%'-') = true by decide, if_true]
    rw [t1, t2]
    simp
  | none =>
    rw [List.nil_append]
    cases ds with
    | cons d ds =>
      obtain ⟨f1, f2, f3, f4, f5, f6, -⟩ := decDigit_facts (hd d (by simp))
      obtain ⟨t1, t2⟩ := tail_number ds (fun x hx => hd x (by simp [hx])) fr hf hr hp (F64.mul10Add (.fin 0) d)
      have e : numberText (d :: ds) fr ++ r = decDigit d :: (numberText ds fr ++ r) := by cases fr <;> rfl
      have e2 : (numberText (d :: ds) fr).length = (numberText ds fr).length + 1 := by cases fr <;> simp [numberText]
      rw [e, skipWs_cons f6 f5, List.drop_zero]
      dsimp only
      rw [if_pos (by simp [f1])]
      simp only [numGo, f1, if_true, f2, beq_eq_false_iff_ne.2 f3, beq_eq_false_iff_ne.2 f4, Bool.false_eq_true, if_false]
      rw [t1, t2, e2]
      simp [wholeFold]
      omega
    | nil =>
      cases fr with
      | none => exact absurd rfl hne
      | some fs =>
        have e : numberText [] (some fs) ++ r = 46 :: (fs.map decDigit ++ r) := rfl
        rw [e, skipWs_cons (by decide) (by decide), List.drop_zero]
        dsimp only
        rw [if_pos (by decide)]
        simp only [numGo, show isDigit 46 = false by decide, show ((46 : UInt8) == ch%'.') = true by decide, show ((46 : UInt8) == ch%'-') = false by decide, Bool.false_eq_true, if_false, if_true,
          List.drop_zero, fracGo_fold fs (hf fs rfl) hr]
        simp [numberText, wholeFold]
        omega

/-! ### The steps are correctly rounded -/

/-- The doubles that occur. -/
def Arises (x : F64) : Prop := (∃ q, 0 ≤ q ∧ x = .fin q) ∨ x = .inf false

theorem IsDouble.nonneg {x : Rat} (h : IsDouble x) : 0 ≤ x := by
  obtain ⟨m, k, -, -, h⟩ := h
  have hc : (0 : Rat) < 2 ^ 1074 := by positivity
  generalize (2 : Rat) ^ 1074 = C at *
  by_contra hx
  have : (0 : Rat) ≤ m * 2 ^ k := by positivity
  nlinarith

theorem Rounded.arises {q : Rat} {x : F64} (h : Rounded q x) : Arises x := by
  cases x with
  | fin x => exact .inl ⟨x, IsDouble.nonneg h.2.double, rfl⟩
  | negZero => exact h.elim
  | inf b => obtain ⟨rfl, -⟩ := h; exact .inr rfl

theorem nat_double {n : Nat} (h : n < 2 ^ 53) : IsDouble n := ⟨n, 1074, h, by norm_num, rfl⟩

theorem Nearest.self {x : Rat} (h : IsDouble x) : Nearest x x := by
  refine ⟨h, fun y _ => ?_, fun y _ hy he => ?_⟩
  · rw [sub_self, abs_zero]; exact abs_nonneg _
  · rw [sub_self, abs_zero] at he
    exact absurd (sub_eq_zero.1 (abs_eq_zero.1 he.symm)).symm hy

theorem small_lt {q : Rat} (h : q ≤ 2 ^ 900) : q < 2 ^ 1024 - 2 ^ 970 := by
  have e1 : (2 : Rat) ^ 1024 = 2 ^ 900 * 2 ^ 124 := by rw [← pow_add]
  have e2 : (2 : Rat) ^ 970 = 2 ^ 900 * 2 ^ 70 := by rw [← pow_add]
  have hp : (0 : Rat) < 2 ^ 900 := by positivity
  rw [e1, e2]
  clear e1 e2
  have h1 : (2 : Rat) ^ 124 - 2 ^ 70 - 1 > 0 := by norm_num
  generalize (2 : Rat) ^ 900 = T at *
  nlinarith [mul_pos hp h1]

theorem nat_rounded {n : Nat} (h : n < 2 ^ 53) : Rounded n (.fin n) := by
  refine ⟨small_lt ?_, Nearest.self (nat_double h)⟩
  have h1 : (n : Rat) ≤ 2 ^ 53 := by exact_mod_cast h.le
  exact h1.trans (pow_le_pow_right₀ (by norm_num) (by norm_num))

theorem mul10Add_good {x : F64} (hx : Arises x) {d : Nat} (hd : d < 10) : ∃ y, Tenfold x y ∧ Sum y d (x.mul10Add d) ∧ Arises (x.mul10Add d) := by
  rcases hx with ⟨q, hq, rfl⟩ | rfl
  · have h1 := (roundQ_rounded (q := q * 10) (by linarith)).1
    have hg := Rounded.arises h1
    rw [mul_comm] at h1
    refine ⟨roundQ (q * 10), .inl ⟨q, rfl, by rw [mul_comm] at *; exact h1⟩, ?_⟩
    simp only [F64.mul10Add]
    rcases hg with ⟨a, ha, e⟩ | e
    · rw [e]
      have h2 := (roundQ_rounded (q := a + d) (by positivity)).1
      exact ⟨.inl ⟨a, d, rfl, nat_rounded (by omega), h2⟩, Rounded.arises h2⟩
    · rw [e]
      exact ⟨.inr ⟨.inl rfl, rfl⟩, .inr rfl⟩
  · exact ⟨.inf false, .inr ⟨rfl, rfl⟩, .inr ⟨.inl rfl, rfl⟩, .inr rfl⟩

theorem addFrac_good {x : F64} (hx : Arises x) (d i : Nat) : Sum x ((d : Rat) / (10 * i)) (x.addFrac d i) ∧ Arises (x.addFrac d i) := by
  have e : mkRat d (10 * i) = (d : Rat) / (10 * i) := by
    rw [Rat.mkRat_eq_div]; push_cast; rfl
  rcases hx with ⟨q, hq, rfl⟩ | rfl
  · have h1 := (roundQ_rounded (q := (d : Rat) / (10 * i)) (div_nonneg (Nat.cast_nonneg _) (by positivity))).1
    have hg := Rounded.arises h1
    simp only [F64.addFrac, e]
    rcases hg with ⟨a, ha, e⟩ | e
    · rw [e] at h1 ⊢
      have h2 := (roundQ_rounded (q := q + a) (by positivity)).1
      exact ⟨.inl ⟨q, a, rfl, h1, h2⟩, Rounded.arises h2⟩
    · rw [e] at h1 ⊢
      exact ⟨.inr ⟨.inr h1, rfl⟩, .inr rfl⟩
  · exact ⟨.inr ⟨.inl rfl, rfl⟩, .inr rfl⟩

theorem wholeFold_double (ds : List Nat) (hd : ∀ d ∈ ds, d < 10) : WholeDouble ds (wholeFold ds (.fin 0)) ∧ Arises (wholeFold ds (.fin 0)) := by
  induction ds using List.reverseRecOn with
  | nil => exact ⟨.nil, .inl ⟨0, le_refl _, rfl⟩⟩
  | append_singleton ds d ih =>
    obtain ⟨h1, h2⟩ := ih (fun x hx => hd x (by simp [hx]))
    obtain ⟨y, k1, k2, k3⟩ := mul10Add_good h2 (hd d (by simp))
    have e : wholeFold (ds ++ [d]) (.fin 0) = (wholeFold ds (.fin 0)).mul10Add d := by simp [wholeFold]
    rw [e]
    exact ⟨.snoc h1 k1 k2, k3⟩

theorem fracFold_snoc (ds : List Nat) (d : Nat) : ∀ x i, fracFold (ds ++ [d]) x i = (fracFold ds x i).addFrac d (i + ds.length) := by
  induction ds with
  | nil => intro x i; simp [fracFold]
  | cons a ds ih =>
    intro x i
    simp only [List.cons_append, fracFold, ih, List.length_cons]
    congr 1
    omega

theorem fracFold_double {x : F64} (hx : Arises x) (ds : List Nat) : FractionDouble x ds (fracFold ds x 1) ∧ Arises (fracFold ds x 1) := by
  induction ds using List.reverseRecOn with
  | nil => exact ⟨.nil, hx⟩
  | append_singleton ds d ih =>
    obtain ⟨h1, h2⟩ := ih
    obtain ⟨k1, k2⟩ := addFrac_good h2 d (1 + ds.length)
    rw [fracFold_snoc]
    push_cast at k1
    rw [add_comm (1 : Rat)] at k1
    exact ⟨.snoc h1 k1, k2⟩

theorem neg_good {x : F64} (hx : Arises x) : Opposite x x.neg := by
  rcases hx with ⟨q, hq, rfl⟩ | rfl
  · unfold F64.neg
    dsimp only
    split
    · next h => subst h; exact .zero
    · next h => exact .fin (lt_of_le_of_ne hq (Ne.symm h))
  · exact .inf

theorem opposite_unique {x y z : F64} (h : Opposite x y) (k : Opposite x z) : y = z := by
  cases h with
  | zero =>
    cases k with
    | zero => rfl
    | fin h => exact absurd h (lt_irrefl _)
  | fin h =>
    cases k with
    | zero => exact absurd h (lt_irrefl _)
    | fin => rfl
  | inf => cases k; rfl

/-! ### The result of rounding is unique -/

theorem IsDouble.canonical {x : Rat} (h : IsDouble x) : ∃ m k : Nat, m < 2 ^ 53 ∧ k ≤ 2045 ∧ (2 ^ 52 ≤ m ∨ k = 0) ∧ x * 2 ^ 1074 = m * 2 ^ k := by
  obtain ⟨m, k, h1, h2, h3⟩ := h
  generalize (2 : Rat) ^ 1074 = C at *
  induction k generalizing m with
  | zero => exact ⟨m, 0, h1, h2, .inr rfl, h3⟩
  | succ k ih =>
    by_cases h : 2 ^ 52 ≤ m
    · exact ⟨m, k + 1, h1, h2, .inl h, h3⟩
    · refine ih (m * 2) (by omega) (by omega) ?_
      rw [h3, pow_succ]
      push_cast
      ring

theorem nearest_lt {q x y : Rat} (hx : Nearest q x) (hy : Nearest q y) : ¬ x < y := by
  intro hlt
  have hd : |q - x| = |q - y| := le_antisymm (hx.closest y hy.double) (hy.closest x hx.double)
  have ex := hx.even y hy.double hlt.ne' hd
  have ey := hy.even x hx.double hlt.ne hd.symm
  have hc : (0 : Rat) < 2 ^ 1074 := by positivity
  have hmid : ∀ z, IsDouble z → x < z → ¬ z < y := by
    intro z hz h1 h2
    have a := hx.closest z hz
    have b := hy.closest z hz
    rcases le_total q z with h | h
    · rw [abs_of_nonpos (by linarith), abs_of_nonpos (by linarith : q - z ≤ 0)] at b
      linarith
    · rw [abs_of_nonneg (by linarith), abs_of_nonneg (by linarith : 0 ≤ q - z)] at a
      linarith
  obtain ⟨m, k, h1, h2, h3, h4⟩ := IsDouble.canonical hx.double
  obtain ⟨m', k', g1, g2, g3, g4⟩ := IsDouble.canonical hy.double
  have hev := ex m k h1 h3 h4
  have hm1 : m + 1 < 2 ^ 53 := by omega
  unfold IsDouble at hmid
  unfold EvenDouble at ey
  generalize (2 : Rat) ^ 1074 = C at *
  have hU : (0 : Rat) < 2 ^ k := by positivity
  have hz : (m + 1 : Rat) * 2 ^ k / C * C = (m + 1 : Rat) * 2 ^ k := div_mul_cancel₀ _ hc.ne'
  have hlt' : (m : Rat) * 2 ^ k < m' * 2 ^ k' := by rw [← h4, ← g4]; exact mul_lt_mul_of_pos_right hlt hc
  have hnot := hmid ((m + 1 : Rat) * 2 ^ k / C) ⟨m + 1, k, hm1, h2, by push_cast; exact hz⟩ (by
    rw [lt_div_iff₀ hc, h4]; linarith)
  have hle : (m' : Rat) * 2 ^ k' ≤ (m + 1) * 2 ^ k := by
    have := not_lt.1 hnot
    rw [le_div_iff₀ hc, g4] at this
    exact this
  by_cases hkk : k ≤ k'
  · have e : (m' : Rat) * 2 ^ k' = ((m' * 2 ^ (k' - k) : Nat) : Rat) * 2 ^ k := by
      push_cast
      rw [mul_assoc, ← pow_add, Nat.sub_add_cancel hkk]
    rw [e] at hlt' hle
    have l1 : m < m' * 2 ^ (k' - k) := by exact_mod_cast lt_of_mul_lt_mul_right hlt' hU.le
    have l2 : m' * 2 ^ (k' - k) ≤ m + 1 := by exact_mod_cast le_of_mul_le_mul_right hle hU
    have l3 : m' * 2 ^ (k' - k) = m + 1 := by omega
    have := ey (m + 1) k hm1 (by omega) (by rw [g4, e, l3])
    omega
  · have h3 := h3.resolve_right (by omega)
    have e : (2 : Rat) ^ k = 2 ^ (k - 1 - k') * 2 ^ k' * 2 := by
      rw [← pow_add, ← pow_succ]; congr 1; omega
    have a1 : (1 : Rat) ≤ 2 ^ (k - 1 - k') := one_le_pow₀ (by norm_num)
    have a2 : (m' : Rat) < 2 ^ 53 := by exact_mod_cast g1
    have a3 : (2 : Rat) ^ 52 ≤ m := by exact_mod_cast h3
    have : (m' : Rat) * 2 ^ k' < m * 2 ^ k := by
      calc (m' : Rat) * 2 ^ k' < 2 ^ 53 * 2 ^ k' := by gcongr
        _ = 2 ^ 52 * (1 * 2 ^ k' * 2) := by ring
        _ ≤ m * (2 ^ (k - 1 - k') * 2 ^ k' * 2) := by gcongr
        _ = m * 2 ^ k := by rw [e]
    linarith

theorem Rounded.unique {q : Rat} {x y : F64} (hx : Rounded q x) (hy : Rounded q y) : x = y := by
  cases x with
  | negZero => exact hx.elim
  | fin x =>
    cases y with
    | negZero => exact hy.elim
    | fin y => exact congrArg _ (le_antisymm (not_lt.1 (nearest_lt hy.2 hx.2)) (not_lt.1 (nearest_lt hx.2 hy.2)))
    | inf b => exact absurd hy.2 (not_le.2 hx.1)
  | inf a =>
    cases y with
    | negZero => exact hy.elim
    | fin y => exact absurd hx.2 (not_le.2 hy.1)
    | inf b => rw [hx.1, hy.1]

theorem Tenfold.unique {x y z : F64} (hy : Tenfold x y) (hz : Tenfold x z) : y = z := by
  rcases hy with ⟨a, rfl, hy⟩ | ⟨rfl, rfl⟩ <;> rcases hz with ⟨b, e, hz⟩ | ⟨e, rfl⟩
  · cases e; exact Rounded.unique hy hz
  · cases e
  · cases e
  · rfl

theorem Sum.unique {x y z : F64} {q : Rat} (hy : Sum x q y) (hz : Sum x q z) : y = z := by
  rcases hy with ⟨a, b, rfl, h1, h2⟩ | ⟨h1, rfl⟩ <;> rcases hz with ⟨a', b', e, k1, k2⟩ | ⟨k1, rfl⟩
  · cases e
    cases Rounded.unique h1 k1
    exact Rounded.unique h2 k2
  · rcases k1 with k1 | k1
    · cases k1
    · cases Rounded.unique h1 k1
  · rcases h1 with h1 | h1
    · rw [e] at h1; cases h1
    · cases Rounded.unique h1 k1
  · rfl

theorem WholeDouble.unique {ds : List Nat} {x y : F64} (hx : WholeDouble ds x) (hy : WholeDouble ds y) : x = y := by
  induction hx generalizing y with
  | nil =>
    generalize h : ([] : List Nat) = l at hy
    cases hy with
    | nil => rfl
    | snoc => simp at h
  | @snoc ds x1 y1 z1 d h1 h2 h3 ih =>
    generalize h : ds ++ [d] = l at hy
    cases hy with
    | nil => simp at h
    | snoc k1 k2 k3 =>
      obtain ⟨rfl, e⟩ := List.append_inj' h rfl
      cases e
      cases ih k1
      cases Tenfold.unique h2 k2
      exact Sum.unique h3 k3

theorem FractionDouble.unique {a : F64} {ds : List Nat} {x y : F64} (hx : FractionDouble a ds x) (hy : FractionDouble a ds y) : x = y := by
  induction hx generalizing y with
  | nil =>
    generalize h : ([] : List Nat) = l at hy
    cases hy with
    | nil => rfl
    | snoc => simp at h
  | @snoc ds y1 z1 d h1 h2 ih =>
    generalize h : ds ++ [d] = l at hy
    cases hy with
    | nil => simp at h
    | snoc k1 k2 =>
      obtain ⟨rfl, e⟩ := List.append_inj' h rfl
      cases e
      cases ih k1
      exact Sum.unique h2 k2

/-! ### Error of whole numbers -/

theorem Rounded.one_le {q x : Rat} (h : Rounded q (.fin x)) (hq : 1 ≤ q) : 1 ≤ x := by
  by_contra hx
  have hx := not_le.1 hx
  have := h.2.closest 1 (by have := nat_double (n := 1) (by norm_num); simpa using this)
  rw [abs_of_nonneg (by linarith), abs_of_nonneg (by linarith)] at this
  linarith

theorem decVal_snoc (ds : List Nat) (d : Nat) : decVal (ds ++ [d]) = decVal ds * 10 + d := by simp [decVal]

theorem roundQ_bounds {q x : Rat} (hq : q = 0 ∨ 1 ≤ q) (h : roundQ q = .fin x) : q * (1 - 1 / 2 ^ 53) ≤ x ∧ x ≤ q * (1 + 1 / 2 ^ 53) ∧ (x = 0 ∧ q = 0 ∨ 1 ≤ x ∧ 1 ≤ q) := by
  rcases hq with rfl | hq
  · rw [show roundQ 0 = .fin 0 by decide +kernel] at h
    cases h
    simp
  · obtain ⟨h1, h2⟩ := roundQ_rounded (q := q) (by linarith)
    have h2 := h2 x h hq
    rw [h] at h1
    obtain ⟨h3, h4⟩ := abs_le.1 h2
    exact ⟨by linarith, by linarith, .inr ⟨Rounded.one_le h1 hq, hq⟩⟩

theorem roundQ_finite {q : Rat} (h0 : 0 ≤ q) (h : q < 2 ^ 1024 - 2 ^ 970) : ∃ x, roundQ q = .fin x := by
  have h1 := (roundQ_rounded h0).1
  cases hx : roundQ q with
  | fin x => exact ⟨x, rfl⟩
  | negZero => rw [hx] at h1; exact h1.elim
  | inf b => rw [hx] at h1; exact absurd h1.2 (not_le.2 h)

theorem big_digits : (10 : Rat) ^ 308 * (1 + 1 / 2 ^ 53) ^ 616 < 2 ^ 1024 - 2 ^ 970 := by decide +kernel

theorem wholeFold_error (ds : List Nat) (hd : ∀ d ∈ ds, d < 10) (hl : ds.length ≤ 308) : ∃ x, wholeFold ds (.fin 0) = .fin x ∧ (decVal ds : Rat) * (1 - 1 / 2 ^ 53) ^ (2 * ds.length) ≤ x ∧
    x ≤ decVal ds * (1 + 1 / 2 ^ 53) ^ (2 * ds.length) ∧ (x = 0 ∧ decVal ds = 0 ∨ 1 ≤ x ∧ 1 ≤ decVal ds) := by
  induction ds using List.reverseRecOn with
  | nil => exact ⟨0, rfl, by simp [decVal], by simp [decVal], .inl ⟨rfl, rfl⟩⟩
  | append_singleton ds d ih =>
    have hlen : ds.length + 1 ≤ 308 := by simpa using hl
    obtain ⟨x, h1, h2, h3, h4⟩ := ih (fun x hx => hd x (by simp [hx])) (by omega)
    have e : wholeFold (ds ++ [d]) (.fin 0) = (wholeFold ds (.fin 0)).mul10Add d := by simp [wholeFold]
    have hx0 : 0 ≤ x := by rcases h4 with ⟨h, -⟩ | ⟨h, -⟩ <;> linarith
    have hd9 : (d : Rat) ≤ 9 := by
      have := hd d (by simp)
      have : d ≤ 9 := by omega
      exact_mod_cast this
    have hd0 : (0 : Rat) ≤ d := by positivity
    have hN : decVal ds + 1 ≤ 10 ^ ds.length := by
      clear h1 h2 h3 h4 ih e hl
      induction ds using List.reverseRecOn with
      | nil => simp [decVal]
      | append_singleton ds c ih =>
        have := ih (fun x hx => hd x (by grind)) (by simp at hlen; omega)
        have := hd c (by simp)
        rw [decVal_snoc, List.length_append, List.length_singleton, pow_succ]
        omega
    have hNr : (decVal ds : Rat) + 1 ≤ 10 ^ ds.length := by exact_mod_cast hN
    generalize hu : (1 : Rat) / 2 ^ 53 = u at *
    have hu0 : 0 < u := by rw [← hu]; positivity
    have hu1 : u < 1 := by rw [← hu]; norm_num
    have hE1 : 1 ≤ (1 + u) ^ (2 * ds.length) := one_le_pow₀ (by linarith)
    have hF0 : 0 ≤ (1 - u) ^ (2 * ds.length) := pow_nonneg (by linarith) _
    have hF1 : (1 - u) ^ (2 * ds.length) ≤ 1 := pow_le_one₀ (by linarith) (by linarith)
    have hEpow : (1 + u) ^ (2 * (ds.length + 1)) = (1 + u) ^ (2 * ds.length) * ((1 + u) * (1 + u)) := by ring
    have hFpow : (1 - u) ^ (2 * (ds.length + 1)) = (1 - u) ^ (2 * ds.length) * ((1 - u) * (1 - u)) := by ring
    have hbig : (10 : Rat) ^ (ds.length + 1) * (1 + u) ^ (2 * (ds.length + 1)) ≤ 10 ^ 308 * (1 + u) ^ 616 := by
      apply mul_le_mul
      · exact pow_le_pow_right₀ (by norm_num) hlen
      · exact pow_le_pow_right₀ (by linarith) (by omega)
      · positivity
      · positivity
    have hbig' := lt_of_le_of_lt hbig (by rw [← hu]; exact big_digits)
    rw [hEpow, pow_succ] at hbig'
    rw [List.length_append, List.length_singleton, hEpow, hFpow, decVal_snoc]
    clear hbig hEpow hFpow hN
    generalize (10 : Rat) ^ ds.length = T at *
    generalize hE : (1 + u) ^ (2 * ds.length) = E at *
    generalize hF : (1 - u) ^ (2 * ds.length) = F at *
    have hN0 : (0 : Rat) ≤ decVal ds := by positivity
    have s1 : x * 10 ≤ 10 * decVal ds * E := by linarith
    have hEE : E ≤ E * (1 + u) := by nlinarith
    have hEE2 : E * (1 + u) ≤ E * ((1 + u) * (1 + u)) := by nlinarith
    have fin1 : x * 10 < 2 ^ 1024 - 2 ^ 970 := by
      refine lt_of_le_of_lt ?_ hbig'
      have : (decVal ds : Rat) * E ≤ T * E := by nlinarith
      have : T * E ≤ T * (E * ((1 + u) * (1 + u))) := by
        have : 0 ≤ T := by linarith
        nlinarith
      linarith
    obtain ⟨y, hy⟩ := roundQ_finite (by linarith) fin1
    obtain ⟨y1, y2, y3⟩ := roundQ_bounds (q := x * 10) (by rcases h4 with ⟨h, -⟩ | ⟨h, -⟩; exacts [.inl (by rw [h]; norm_num), .inr (by linarith)]) hy
    have hy0 : 0 ≤ y := by rcases y3 with ⟨h, -⟩ | ⟨h, -⟩ <;> linarith
    have s2 : y + d ≤ (10 * decVal ds + d) * (E * (1 + u)) := by
      have a1 : y ≤ 10 * decVal ds * E * (1 + u) := by nlinarith
      have a2 : (d : Rat) * 1 ≤ d * (E * (1 + u)) := by
        apply mul_le_mul_of_nonneg_left _ hd0
        linarith
      nlinarith
    have fin2 : y + d < 2 ^ 1024 - 2 ^ 970 := by
      refine lt_of_le_of_lt (s2.trans ?_) hbig'
      have hb : (10 * decVal ds + d : Rat) ≤ T * 10 := by linarith
      apply mul_le_mul hb hEE2
      · nlinarith
      · linarith
    obtain ⟨z, hz⟩ := roundQ_finite (by linarith) fin2
    have hyd : y + d = 0 ∨ 1 ≤ y + d := by
      rcases y3 with ⟨h, -⟩ | ⟨h, -⟩
      · rw [h, zero_add]
        rcases Nat.eq_zero_or_pos d with h | h
        · left; exact_mod_cast h
        · right; exact_mod_cast h
      · right; linarith
    obtain ⟨z1, z2, z3⟩ := roundQ_bounds hyd hz
    refine ⟨z, ?_, ?_, ?_, ?_⟩
    · rw [e, h1]
      simp only [F64.mul10Add, hy, hz]
    · push_cast
      have b1 : 10 * decVal ds * F * (1 - u) ≤ y := by
        have : 10 * decVal ds * F ≤ x * 10 := by linarith
        nlinarith
      have b2 : (d : Rat) * (F * (1 - u)) ≤ d * 1 := by
        apply mul_le_mul_of_nonneg_left _ hd0
        nlinarith
      have b3 : (10 * decVal ds + d) * (F * (1 - u)) ≤ y + d := by linarith
      nlinarith
    · push_cast
      nlinarith
    · rcases z3 with ⟨h, h'⟩ | ⟨h, h'⟩
      · left
        refine ⟨h, ?_⟩
        have hd' : (d : Rat) = 0 := by linarith
        have hy' : y = 0 := by linarith
        rcases y3 with ⟨-, g⟩ | ⟨g, -⟩
        · rcases h4 with ⟨-, g'⟩ | ⟨g', -⟩
          · have : d = 0 := by exact_mod_cast hd'
            omega
          · linarith
        · linarith
      · right
        refine ⟨h, ?_⟩
        by_contra hcon
        have h0 : decVal ds = 0 ∧ d = 0 := by omega
        rcases h4 with ⟨g, -⟩ | ⟨-, g⟩
        · rcases y3 with ⟨g', -⟩ | ⟨-, g'⟩
          · have : (d : Rat) = 0 := by exact_mod_cast h0.2
            linarith
          · rw [g] at g'; linarith
        · omega

end Pdf
