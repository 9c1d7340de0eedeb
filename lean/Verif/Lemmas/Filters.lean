import Verif.Model.Filters
import Verif.Spec.Filters

namespace Pdf
open Spec

theorem isWs_iff (b : UInt8) : isWs b = true ↔ IsWhite b := by
  simp [isWs, whitespace, IsWhite]

theorem hexDigit_facts : ∀ n : Fin 16, ∀ c, (c = hexLower n ∨ c = hexUpper n) →
    hexVal? c = some n.val ∧ isWs c = false ∧ c ≠ 62 := by
  have h : ∀ n : Fin 16, (hexVal? (hexLower n) = some n.val ∧ isWs (hexLower n) = false ∧ hexLower n ≠ 62)
     ∧ (hexVal? (hexUpper n) = some n.val ∧ isWs (hexUpper n) = false ∧ hexUpper n ≠ 62) := by
    decide +kernel
  rintro n c (rfl | rfl)
  · exact (h n).1
  · exact (h n).2

theorem Spec.IsHexDigit.facts {n : Nat} {c : UInt8} (h : IsHexDigit n c) :
    hexVal? c = some n ∧ isWs c = false ∧ c ≠ 62 := hexDigit_facts ⟨n, h.1⟩ c h.2

theorem hexSecond_ws (sp t : Bytes) (h : ∀ w ∈ sp, IsWhite w) :
    hexSecond (sp ++ t) = hexSecond t := by
  induction sp with
  | nil => rfl
  | cons w sp ih =>
    have hw : isWs w = true := (isWs_iff w).2 (h w (by simp))
    rw [List.cons_append, hexSecond]
    simp only [hw, if_true]
    exact ih (fun x hx => h x (by simp [hx]))

theorem asciiHexLoop_ws (sp : Bytes) (h : ∀ w ∈ sp, IsWhite w) (tail : Bytes) (f : Nat) (out : Bytes) :
    asciiHexLoop (sp.length + f) (sp ++ tail) out = asciiHexLoop f tail out := by
  induction sp with
  | nil => simp
  | cons w sp ih =>
    have hw : isWs w = true := (isWs_iff w).2 (h w (by simp))
    rw [List.length_cons, List.cons_append, show sp.length + 1 + f = (sp.length + f) + 1 from by omega,
      asciiHexLoop]
    simp only [hw, if_true]
    exact ih (fun x hx => h x (by simp [hx]))

/-- What may follow the encoded data: nothing, or the end marker and anything. -/
def HexEnd (tail : Bytes) : Prop := tail = [] ∨ ∃ r, tail = 62 :: r

theorem asciiHexLoop_end {tail : Bytes} (h : HexEnd tail) (f : Nat) (out : Bytes) :
    asciiHexLoop f tail out = out := by
  cases f with
  | zero => rfl
  | succ f =>
    rcases h with rfl | ⟨r, rfl⟩
    · rfl
    · simp [asciiHexLoop, isWs, whitespace]

theorem hexSecond_end {tail : Bytes} (h : HexEnd tail) : hexSecond tail = (48, tail) := by
  rcases h with rfl | ⟨r, rfl⟩
  · rfl
  · simp [hexSecond, isWs, whitespace]

theorem asciiHexLoop_text {d t : Bytes} (h : HexText d t) :
    ∀ (tail : Bytes), HexEnd tail → ∀ (f : Nat), t.length ≤ f → ∀ out,
      asciiHexLoop f (t ++ tail) out = out ++ d := by
  induction h with
  | nil => intro tail ht f _ out; simpa using asciiHexLoop_end ht f out
  | @ws w d t hw _ ih =>
    intro tail ht f hf out
    obtain ⟨f, rfl⟩ : ∃ k, f = k + 1 := ⟨f - 1, by simp at hf; omega⟩
    have hw' : isWs w = true := (isWs_iff w).2 hw
    rw [List.cons_append, asciiHexLoop]
    simp only [hw', if_true]
    exact ih tail ht f (by simpa using hf) out
  | @byte h l c1 c2 sp d t h1 h2 hsp _ ih =>
    intro tail ht f hf out
    obtain ⟨f, rfl⟩ : ∃ k, f = k + 1 := ⟨f - 1, by simp at hf; omega⟩
    obtain ⟨v1, w1, e1⟩ := Spec.IsHexDigit.facts h1
    obtain ⟨v2, w2, e2⟩ := Spec.IsHexDigit.facts h2
    have hsec : hexSecond (sp ++ c2 :: t ++ tail) = (c2, t ++ tail) := by
      rw [List.append_assoc, hexSecond_ws _ _ hsp, List.cons_append, hexSecond]
      simp [w2, e2]
    rw [List.cons_append, asciiHexLoop]
    simp only [w1, hsec]
    simp only [beq_iff_eq, e1, parseHex2, v1, v2, if_false, Bool.false_eq_true]
    rw [ih tail ht f (by simp at hf; omega)]
    simp [Nat.mul_comm]
  | @odd h c sp h1 hsp =>
    intro tail ht f hf out
    obtain ⟨f, rfl⟩ : ∃ k, f = k + 1 := ⟨f - 1, by simp at hf; omega⟩
    obtain ⟨v1, w1, e1⟩ := Spec.IsHexDigit.facts h1
    have hsec : hexSecond (sp ++ tail) = (48, tail) := by
      rw [hexSecond_ws _ _ hsp, hexSecond_end ht]
    rw [List.cons_append, asciiHexLoop]
    simp only [w1, hsec]
    have : hexVal? 48 = some 0 := by decide
    simp only [beq_iff_eq, e1, parseHex2, v1, this, if_false, Bool.false_eq_true]
    rw [asciiHexLoop_end ht]
    simp [Nat.mul_comm]

/-! ### Run length -/

theorem runLengthLoop_run (r : Run) (hr : r.Valid) (tail out : Bytes) (f : Nat) :
    runLengthLoop (f + 1) (r.encode ++ tail) out = runLengthLoop f tail (out ++ r.bytes) := by
  cases r with
  | lit b =>
    obtain ⟨h1, h2⟩ := hr
    have e : (UInt8.ofNat (b.length - 1)).toNat = b.length - 1 := by
      simp only [UInt8.toNat_ofNat']; omega
    simp only [Run.encode, Run.bytes, List.cons_append, runLengthLoop, e]
    have hne : (b ++ tail).isEmpty = false := by
      cases b with
      | nil => simp at h1
      | cons => rfl
    rw [if_neg (by omega), if_pos (by omega)]
    simp only [hne, Bool.false_eq_true, if_false]
    rw [if_neg (by simp; omega), show b.length - 1 + 1 = b.length from by omega]
    simp
  | rep n b =>
    obtain ⟨h1, h2⟩ := hr
    have e : (UInt8.ofNat (257 - n)).toNat = 257 - n := by
      simp only [UInt8.toNat_ofNat']; omega
    simp only [Run.encode, Run.bytes, List.cons_append, List.nil_append, runLengthLoop, e]
    rw [if_neg (by omega), if_neg (by omega), show 257 - (257 - n) = n from by omega]

theorem Spec.Run.encode_length_pos (r : Run) : 1 ≤ r.encode.length := by
  cases r <;> simp [Run.encode]

theorem runLengthLoop_runs (rs : List Run) (hr : ∀ r ∈ rs, r.Valid) (tail : Bytes) :
    ∀ (f : Nat) (out : Bytes), (rs.flatMap Run.encode).length + tail.length ≤ f →
      ∃ g, tail.length ≤ g ∧
        runLengthLoop f (rs.flatMap Run.encode ++ tail) out = runLengthLoop g tail (out ++ rs.flatMap Run.bytes) := by
  induction rs with
  | nil => intro f out hf; exact ⟨f, by simpa using hf, by simp⟩
  | cons r rs ih =>
    intro f out hf
    have hp := r.encode_length_pos
    simp only [List.flatMap_cons, List.length_append] at hf
    obtain ⟨f, rfl⟩ : ∃ k, f = k + 1 := ⟨f - 1, by omega⟩
    obtain ⟨g, hg, e⟩ := ih (fun x hx => hr x (by simp [hx])) f (out ++ r.bytes) (by omega)
    refine ⟨g, hg, ?_⟩
    rw [List.flatMap_cons, List.append_assoc, runLengthLoop_run r (hr r (by simp)), e]
    simp

theorem runLengthLoop_bound : ∀ (f : Nat) (d out : Bytes),
    (runLengthLoop f d out).length ≤ out.length + 64 * d.length := by
  intro f
  induction f with
  | zero => intro d out; simp [runLengthLoop]
  | succ f ih =>
    intro d out
    cases d with
    | nil => simp [runLengthLoop]
    | cons l t =>
      simp only [runLengthLoop, List.length_cons]
      split
      · omega
      split
      · split
        · omega
        split
        · simp; omega
        · refine Nat.le_trans (ih _ _) ?_
          simp only [List.length_append, List.length_take, List.length_drop]; omega
      · cases t with
        | nil => simp
        | cons b t =>
          refine Nat.le_trans (ih _ _) ?_
          have := l.toNat_lt
          simp only [List.length_append, List.length_replicate, List.length_cons]; omega

end Pdf
