import Verif.Lemmas.Filters
namespace Pdf
open Spec

/-! ### Base 85 -/

theorem ascii85Loop_spaced {t s : Bytes} (h : Spaced t s) (tail : Bytes) :
    ∀ v n out, ascii85Loop (s ++ tail) v n out = ascii85Loop (t ++ tail) v n out := by
  induction h with
  | nil => intros; rfl
  | @ws w t s hw _ ih =>
    intro v n out
    have hw' : isWs w = true := (isWs_iff w).2 hw
    have hne : (w == ch%'~') = false := by
      rcases hw with rfl | rfl | rfl | rfl | rfl | rfl <;> decide
    rw [List.cons_append, ascii85Loop]
    simp only [hne, hw', if_true, Bool.false_eq_true, if_false]
    exact ih v n out
  | @byte b t s _ ih =>
    intro v n out
    rw [List.cons_append, List.cons_append, ascii85Loop, ascii85Loop]
    simp only [ih]

theorem digit_char_facts : ∀ d : Fin 85,
    (UInt8.ofNat (33 + d.val) == ch%'~') = false ∧ isWs (UInt8.ofNat (33 + d.val)) = false ∧
    (UInt8.ofNat (33 + d.val) == ch%'z') = false ∧
    (UInt8.ofNat (33 + d.val) < ch%'!' || ch%'u' < UInt8.ofNat (33 + d.val)) = false ∧
    (UInt8.ofNat (33 + d.val)).toNat - 33 = d.val := by
  decide +kernel

theorem ascii85Loop_digit {d : Nat} (hd : d < 85) (t : Bytes) (v n : Nat) (out : Bytes) :
    ascii85Loop (UInt8.ofNat (33 + d) :: t) v n out =
      if n + 1 ≥ 5 then ascii85Loop t 0 0 (out ++ be32 (u32 (u32 (v * 85) + d)))
      else ascii85Loop t (u32 (u32 (v * 85) + d)) (n + 1) out := by
  obtain ⟨h1, h2, h3, h4, h5⟩ := digit_char_facts ⟨d, hd⟩
  simp only at h1 h2 h3 h4 h5
  rw [ascii85Loop]
  simp only [h1, h2, h3, h4, h5, Bool.false_eq_true, if_false]

theorem horner85 {v : Nat} (hv : v < 4294967296) (k : Nat) :
    u32 (u32 (v / 85 ^ (k + 1) * 85) + v / 85 ^ k % 85) = v / 85 ^ k := by
  have e : v / 85 ^ (k + 1) = v / 85 ^ k / 85 := by rw [Nat.pow_succ, Nat.div_div_eq_div_mul]
  have hle : v / 85 ^ k ≤ v := Nat.div_le_self _ _
  rw [e]; simp only [u32]; omega

theorem be32_beVal (a b c d : UInt8) : be32 (beVal [a, b, c, d]) = [a, b, c, d] := by
  have ha := a.toNat_lt; have hb := b.toNat_lt; have hc := c.toNat_lt; have hd := d.toNat_lt
  simp only [be32, beVal, List.foldl_cons, List.foldl_nil, List.cons.injEq, and_true]
  refine ⟨?_, ?_, ?_, ?_⟩ <;> apply UInt8.toNat_inj.1 <;> simp only [UInt8.toNat_ofNat'] <;> omega

theorem beVal4_lt (a b c d : UInt8) : beVal [a, b, c, d] < 4294967296 := by
  have ha := a.toNat_lt; have hb := b.toNat_lt; have hc := c.toNat_lt; have hd := d.toNat_lt
  simp only [beVal, List.foldl_cons, List.foldl_nil]; omega

theorem ascii85Loop_step {v : Nat} (hv : v < 4294967296) (k n : Nat) (hn : n < 4) (t out : Bytes) :
    ascii85Loop (digit85 v k :: t) (v / 85 ^ (k + 1)) n out = ascii85Loop t (v / 85 ^ k) (n + 1) out := by
  rw [digit85, ascii85Loop_digit (Nat.mod_lt _ (by decide)), if_neg (by omega), horner85 hv]

theorem ascii85Loop_first {v : Nat} (hv : v < 4294967296) (t out : Bytes) :
    ascii85Loop (digit85 v 4 :: t) 0 0 out = ascii85Loop t (v / 85 ^ 4) 1 out := by
  have h := ascii85Loop_step hv 4 0 (by omega) t out
  rwa [show v / 85 ^ (4 + 1) = 0 from Nat.div_eq_of_lt (by omega)] at h

theorem ascii85Loop_group (a b c d : UInt8) (t out : Bytes) :
    ascii85Loop (group85 a b c d ++ t) 0 0 out = ascii85Loop t 0 0 (out ++ [a, b, c, d]) := by
  have hv := beVal4_lt a b c d
  have hb := be32_beVal a b c d
  simp only [group85]
  generalize beVal [a, b, c, d] = v at *
  split
  · next h =>
    subst h
    rw [← hb]
    simp [ascii85Loop, isWs, whitespace, be32]
  · simp only [List.cons_append, List.nil_append]
    rw [ascii85Loop_first hv, ascii85Loop_step hv 3 1 (by omega),
      ascii85Loop_step hv 2 2 (by omega), ascii85Loop_step hv 1 3 (by omega)]
    rw [digit85, ascii85Loop_digit (Nat.mod_lt _ (by decide)), if_pos (by omega), horner85 hv]
    simp [hb]

/-- What may follow the encoded data: nothing, or the end marker and anything. -/
def End85 (tail : Bytes) : Prop := tail = [] ∨ ∃ r, tail = 126 :: r

theorem ascii85Loop_end {tail : Bytes} (h : End85 tail) (v n : Nat) (out : Bytes) :
    ascii85Loop tail v n out = ascii85Finish v n out := by
  rcases h with rfl | ⟨r, rfl⟩
  · rfl
  · simp [ascii85Loop]

/-- The value of a final group after the code pads it with zero digits. -/
def padded85 (b : Bytes) : Nat :=
  let v := beVal (b ++ List.replicate (4 - b.length) 0)
  v / 85 ^ (4 - b.length) * 85 ^ (4 - b.length)

theorem ascii85Loop_last (b : Bytes) (h1 : 1 ≤ b.length) (h3 : b.length ≤ 3) {tail : Bytes}
    (ht : End85 tail) (out : Bytes) :
    ascii85Loop (last85 b ++ tail) 0 0 out = out ++ (be32 (padded85 b)).take b.length := by
  have hv : beVal (b ++ List.replicate (4 - b.length) 0) < 4294967296 := by
    match b, h1, h3 with
    | [a], _, _ => exact beVal4_lt a 0 0 0
    | [a, b], _, _ => exact beVal4_lt a b 0 0
    | [a, b, c], _, _ => exact beVal4_lt a b c 0
  simp only [last85, padded85]
  generalize beVal (b ++ List.replicate (4 - b.length) 0) = v at *
  have pad : ∀ k, pad85 k (v / 85 ^ k) = v / 85 ^ k * 85 ^ k := by
    intro k
    have : ∀ j w, w * 85 ^ j < 4294967296 → pad85 j w = w * 85 ^ j := by
      intro j
      induction j with
      | zero => intro w _; simp [pad85]
      | succ j ih =>
        intro w hw
        have e : w * 85 ^ (j + 1) = w * 85 * 85 ^ j := by rw [Nat.pow_succ]; ac_rfl
        have : w * 85 ≤ w * 85 * 85 ^ j := Nat.le_mul_of_pos_right _ (Nat.pow_pos (by decide))
        rw [pad85, show u32 (w * 85) = w * 85 from Nat.mod_eq_of_lt (by omega), ih _ (by omega), e]
    exact this k _ (Nat.lt_of_le_of_lt (Nat.div_mul_le_self _ _) hv)
  rcases (show b.length = 1 ∨ b.length = 2 ∨ b.length = 3 by omega) with h | h | h <;>
    simp only [h, List.take_succ_cons, List.take_zero, List.cons_append, List.nil_append]
  · rw [ascii85Loop_first hv, ascii85Loop_step hv 3 1 (by omega), ascii85Loop_end ht,
      ascii85Finish, if_pos (by omega), ← pad 3]
  · rw [ascii85Loop_first hv, ascii85Loop_step hv 3 1 (by omega),
      ascii85Loop_step hv 2 2 (by omega), ascii85Loop_end ht, ascii85Finish, if_pos (by omega), ← pad 2]
  · rw [ascii85Loop_first hv, ascii85Loop_step hv 3 1 (by omega),
      ascii85Loop_step hv 2 2 (by omega), ascii85Loop_step hv 1 3 (by omega), ascii85Loop_end ht,
      ascii85Finish, if_pos (by omega), ← pad 1]

theorem top1 (W a : Nat) (h : W < 4294967296) :
    W / 16777216 % 256 = a ↔ W / 16777216 = a := by
  rw [Nat.mod_eq_of_lt (by omega)]

theorem top2 (W a b : Nat) (h : W < 4294967296) (hb : b < 256) :
    (W / 16777216 % 256 = a ∧ W / 65536 % 256 = b) ↔ W / 65536 = a * 256 + b := by
  have e : W / 16777216 = W / 65536 / 256 := by rw [Nat.div_div_eq_div_mul]
  have hy : W / 65536 < 65536 := by omega
  rw [e]; generalize W / 65536 = y at *
  rw [Nat.mod_eq_of_lt (a := y / 256) (by omega)]; omega

theorem top3 (W a b c : Nat) (h : W < 4294967296) (hb : b < 256) (hc : c < 256) :
    (W / 16777216 % 256 = a ∧ W / 65536 % 256 = b ∧ W / 256 % 256 = c) ↔
      W / 256 = (a * 256 + b) * 256 + c := by
  have e : W / 16777216 = W / 256 / 65536 := by rw [Nat.div_div_eq_div_mul]
  have e2 : W / 65536 = W / 256 / 256 := by rw [Nat.div_div_eq_div_mul]
  have hy : W / 256 < 16777216 := by omega
  rw [e, e2]; generalize W / 256 = y at *
  rw [Nat.mod_eq_of_lt (a := y / 65536) (by omega)]; omega

/-- The last, incomplete group is recovered exactly when its dropped base-85 digits are zero. -/
theorem last85_ok_iff (b : Bytes) (h1 : 1 ≤ b.length) (h3 : b.length ≤ 3) :
    (be32 (padded85 b)).take b.length = b ↔
      beVal (b ++ List.replicate (4 - b.length) 0) % 85 ^ (4 - b.length) = 0 := by
  match b, h1, h3 with
  | [a], _, _ =>
    have ha := a.toNat_lt
    simp only [padded85, List.length_cons, List.length_nil, be32, beVal, List.replicate, List.cons_append,
      List.nil_append, List.foldl_cons, List.foldl_nil, List.take_succ_cons, List.take_zero,
      List.cons.injEq, and_true, ← UInt8.toNat_inj, UInt8.toNat_ofNat', UInt8.toNat_zero,
      Nat.zero_mul, Nat.zero_add, Nat.add_zero, Nat.reducePow, Nat.reduceSub]
    have hX : a.toNat * 256 * 256 * 256 / 614125 * 614125 = a.toNat * 256 * 256 * 256 - a.toNat * 256 * 256 * 256 % 614125 := by omega
    have hr : (a.toNat * 256 * 256 * 256) % 614125 < 614125 := Nat.mod_lt _ (by decide)
    have hr' : (a.toNat * 256 * 256 * 256) % 614125 ≤ a.toNat * 256 * 256 * 256 := Nat.mod_le _ _
    rw [hX]
    clear hX
    generalize (a.toNat * 256 * 256 * 256) % 614125 = r at *
    rw [top1 _ _ (by omega)]; omega
  | [a, b], _, _ =>
    have ha := a.toNat_lt
    have hb := b.toNat_lt
    simp only [padded85, List.length_cons, List.length_nil, be32, beVal, List.replicate, List.cons_append,
      List.nil_append, List.foldl_cons, List.foldl_nil, List.take_succ_cons, List.take_zero,
      List.cons.injEq, and_true, ← UInt8.toNat_inj, UInt8.toNat_ofNat', UInt8.toNat_zero,
      Nat.zero_mul, Nat.zero_add, Nat.add_zero, Nat.reducePow]
    have hX : (a.toNat * 256 + b.toNat) * 256 * 256 / 7225 * 7225 = (a.toNat * 256 + b.toNat) * 256 * 256 - (a.toNat * 256 + b.toNat) * 256 * 256 % 7225 := by omega
    have hr : ((a.toNat * 256 + b.toNat) * 256 * 256) % 7225 < 7225 := Nat.mod_lt _ (by decide)
    have hr' : ((a.toNat * 256 + b.toNat) * 256 * 256) % 7225 ≤ (a.toNat * 256 + b.toNat) * 256 * 256 := Nat.mod_le _ _
    rw [hX]
    clear hX
    generalize ((a.toNat * 256 + b.toNat) * 256 * 256) % 7225 = r at *
    rw [top2 _ _ _ (by omega) hb]; omega
  | [a, b, c], _, _ =>
    have ha := a.toNat_lt
    have hb := b.toNat_lt
    have hc := c.toNat_lt
    simp only [padded85, List.length_cons, List.length_nil, be32, beVal, List.replicate, List.cons_append,
      List.nil_append, List.foldl_cons, List.foldl_nil, List.take_succ_cons, List.take_zero,
      List.cons.injEq, and_true, ← UInt8.toNat_inj, UInt8.toNat_ofNat', UInt8.toNat_zero,
      Nat.zero_mul, Nat.zero_add, Nat.add_zero, Nat.reducePow]
    have hX : ((a.toNat * 256 + b.toNat) * 256 + c.toNat) * 256 / 85 * 85 = ((a.toNat * 256 + b.toNat) * 256 + c.toNat) * 256 - ((a.toNat * 256 + b.toNat) * 256 + c.toNat) * 256 % 85 := by omega
    have hr : (((a.toNat * 256 + b.toNat) * 256 + c.toNat) * 256) % 85 < 85 := Nat.mod_lt _ (by decide)
    have hr' : (((a.toNat * 256 + b.toNat) * 256 + c.toNat) * 256) % 85 ≤ ((a.toNat * 256 + b.toNat) * 256 + c.toNat) * 256 := Nat.mod_le _ _
    rw [hX]
    clear hX
    generalize (((a.toNat * 256 + b.toNat) * 256 + c.toNat) * 256) % 85 = r at *
    rw [top3 _ _ _ _ (by omega) hb hc]; omega

/-- Decoding an encoding: the complete groups, then the possibly wrong last one. -/
theorem ascii85Loop_encode {tail : Bytes} (ht : End85 tail) : ∀ (d out : Bytes),
    ascii85Loop (encode85 d ++ tail) 0 0 out =
      out ++ d.take (d.length / 4 * 4) ++
        (be32 (padded85 (d.drop (d.length / 4 * 4)))).take (d.length % 4) := by
  intro d
  induction d using encode85.induct with
  | case1 a b c d t ih =>
    intro out
    rw [encode85, List.append_assoc, ascii85Loop_group, ih]
    have e : (a :: b :: c :: d :: t).length / 4 * 4 = t.length / 4 * 4 + 1 + 1 + 1 + 1 := by
      simp; omega
    have e2 : (a :: b :: c :: d :: t).length % 4 = t.length % 4 := by simp; omega
    rw [e, e2]
    simp only [List.take_succ_cons, List.drop_succ_cons, List.append_assoc, List.cons_append, List.nil_append]
  | case2 => intro out; simp [encode85, ascii85Loop_end ht, ascii85Finish]
  | case3 b h1 h2 =>
    intro out
    have hl : 1 ≤ b.length ∧ b.length ≤ 3 := by
      match b, h1, h2 with
      | [a], _, _ => simp
      | [a, b], _, _ => simp
      | [a, b, c], _, _ => simp
      | a :: b :: c :: d :: t, h, _ => exact absurd rfl (h a b c d t)
      | [], _, h => exact absurd rfl h
    have e : encode85 b = last85 b := by
      match b, h1, h2 with
      | [a], _, _ => rfl
      | [a, b], _, _ => rfl
      | [a, b, c], _, _ => rfl
      | a :: b :: c :: d :: t, h, _ => exact absurd rfl (h a b c d t)
      | [], _, h => exact absurd rfl h
    rw [e, ascii85Loop_last b hl.1 hl.2 ht, show b.length / 4 * 4 = 0 from by omega,
      show b.length % 4 = b.length from by omega]
    simp
end Pdf
