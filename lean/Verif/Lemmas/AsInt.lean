import Verif.Spec.Resolve
import Mathlib.Tactic.Linarith
import Mathlib.Tactic.NormNum
import Mathlib.Tactic.Ring
import Mathlib.Algebra.Order.Field.Rat
/-!
Conversion of numbers to integers.
-/

namespace Pdf

open Spec

theorem tdiv_nonneg {n : Int} {d : Nat} (hd : 0 < d) (h : 0 ≤ n) : 0 ≤ n.tdiv d ∧ n.tdiv d * d ≤ n ∧ n < (n.tdiv d + 1) * d := by
  have hd' : (0 : Int) < d := by exact_mod_cast hd
  rw [Int.tdiv_eq_ediv_of_nonneg h]
  exact ⟨Int.ediv_nonneg h hd'.le, Int.ediv_mul_le _ hd'.ne', Int.lt_ediv_add_one_mul_self _ hd'⟩

theorem tdiv_neg' {n : Int} {d : Nat} (hd : 0 < d) (h : n ≤ 0) : n.tdiv d ≤ 0 ∧ n ≤ n.tdiv d * d ∧ (n.tdiv d - 1) * d < n := by
  obtain ⟨h1, h2, h3⟩ := tdiv_nonneg (n := -n) hd (by omega)
  rw [Int.neg_tdiv] at h1 h2 h3
  refine ⟨by omega, by linarith, by linarith⟩

theorem rat_parts (q : Rat) : q * q.den = q.num ∧ (0 : Rat) < q.den :=
  ⟨Rat.mul_den_eq_num q, by exact_mod_cast q.den_pos⟩

theorem asInt_toInt (x : F64) : AsInt x x.toInt := by
  cases x with
  | negZero => exact .negZero
  | inf b => exact .infinite
  | fin q =>
    obtain ⟨e, hd⟩ := rat_parts q
    simp only [F64.toInt]
    generalize ht : q.num.tdiv q.den = t
    rcases Int.le_total 0 q.num with h | h
    · obtain ⟨h1, h2, h3⟩ := tdiv_nonneg q.den_pos h
      rw [ht] at h1 h2 h3
      have h2' : (t : Rat) * q.den ≤ q.num := by exact_mod_cast h2
      have h3' : (q.num : Rat) < ((t : Rat) + 1) * q.den := by exact_mod_cast h3
      rw [← e] at h2' h3'
      have h2'' := le_of_mul_le_mul_right h2' hd
      have h3'' := lt_of_mul_lt_mul_right h3' hd.le
      split
      · rename_i hr
        exact .nonneg h1 h2'' h3'' (by norm_num; omega)
      · rename_i hr
        refine .large (le_trans ?_ h2'')
        have : (9223372036854775808 : Int) ≤ t := by omega
        have : ((9223372036854775808 : Int) : Rat) ≤ t := by exact_mod_cast this
        norm_num at this ⊢
        exact this
    · obtain ⟨h1, h2, h3⟩ := tdiv_neg' q.den_pos h
      rw [ht] at h1 h2 h3
      have h2' : (q.num : Rat) ≤ (t : Rat) * q.den := by exact_mod_cast h2
      have h3' : ((t : Rat) - 1) * q.den < (q.num : Rat) := by exact_mod_cast h3
      rw [← e] at h2' h3'
      have h2'' := le_of_mul_le_mul_right h2' hd
      have h3'' := lt_of_mul_lt_mul_right h3' hd.le
      split
      · rename_i hr
        exact .neg h1 h2'' h3'' (by norm_num; omega)
      · rename_i hr
        refine .small (le_trans h2'' ?_)
        have : t ≤ -9223372036854775809 := by omega
        have : (t : Rat) ≤ ((-9223372036854775809 : Int) : Rat) := by exact_mod_cast this
        norm_num at this ⊢
        exact this

theorem Spec.AsInt.unique {x : F64} {a b : Int} (ha : AsInt x a) (hb : AsInt x b) : a = b := by
  have lt_of {m n : Int} (h : (m : Rat) < n) : m < n := by exact_mod_cast h
  have lt1 {m n : Int} {q : Rat} (h : (m : Rat) ≤ q) (h' : q < (n : Rat) + 1) : m < n + 1 := lt_of (by push_cast; linarith)
  have lt2 {m n : Int} {q : Rat} (h : q ≤ (m : Rat)) (h' : (n : Rat) - 1 < q) : n - 1 < m := lt_of (by push_cast; linarith)
  have big {m : Int} {q : Rat} (h : (2 : Rat) ^ 63 ≤ q) (h' : q < (m : Rat) + 1) : 2 ^ 63 < m + 1 := lt_of (by push_cast; linarith)
  have small {m : Int} {q : Rat} (h : q ≤ -2 ^ 63 - 1) (h' : (m : Rat) - 1 < q) : m < -2 ^ 63 := lt_of (by push_cast; linarith)
  have p1 {m : Int} (h : 0 ≤ m) : (0 : Rat) ≤ m := by exact_mod_cast h
  have p2 {m : Int} (h : m ≤ 0) : (m : Rat) ≤ 0 := by exact_mod_cast h
  cases ha with
  | negZero => cases hb; rfl
  | infinite => cases hb; rfl
  | nonneg h1 h2 h3 h4 =>
    cases hb with
    | nonneg g1 g2 g3 g4 => have := lt1 h2 g3; have := lt1 g2 h3; omega
    | neg g1 g2 g3 g4 =>
      have : (a : Rat) ≤ b := le_trans h2 g2
      have : a ≤ b := by exact_mod_cast this
      omega
    | large g => have := big g h3; omega
    | small g => have := p1 h1; norm_num at g; linarith
  | neg h1 h2 h3 h4 =>
    cases hb with
    | nonneg g1 g2 g3 g4 =>
      have : (b : Rat) ≤ a := le_trans g2 h2
      have : b ≤ a := by exact_mod_cast this
      omega
    | neg g1 g2 g3 g4 => have := lt2 h2 g3; have := lt2 g2 h3; omega
    | large g => have := p2 h1; norm_num at g; linarith
    | small g => have := small g h3; omega
  | large h =>
    cases hb with
    | nonneg g1 g2 g3 g4 => have := big h g3; omega
    | neg g1 g2 g3 g4 => have := p2 g1; norm_num at h; linarith
    | large g => rfl
    | small g => rfl
  | small h =>
    cases hb with
    | nonneg g1 g2 g3 g4 => have := p1 g1; norm_num at h; linarith
    | neg g1 g2 g3 g4 => have := small h g3; omega
    | large g => rfl
    | small g => rfl

theorem toInt_iff (x : F64) (a : Int) : AsInt x a ↔ a = x.toInt :=
  ⟨fun h => h.unique (asInt_toInt x), fun h => h ▸ asInt_toInt x⟩

end Pdf
