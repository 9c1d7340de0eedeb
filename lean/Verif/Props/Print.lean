import Verif.Lemmas.Print
import Verif.Props.Parser
import Verif.Props.Lexer
/-!
C08: the text of objects in raw.pdf.
-/

namespace Pdf.Props
open Pdf Spec

/-- **C08, partial** The text of every plain value (`Spec.Plain`: no bytes that would need quoting, no
numbers printed in exponent form) is read back as that value, by itself, with no message; the reader
stops right after it. Missing: values outside `Plain`, for which it is false (`C08_…_false`), and
numbers with a fraction (C06). -/
theorem C08_reread_partial {o : Obj} (h : Plain o) {w r : Bytes} (hw : Blank w) (hr : Stops r) (hrt : ¬ RefTail r) (file : Bytes) (s : PS)
    (hin : file.drop s.pos = w ++ (o.toBytes ++ r)) :
    ∃ s', readObj file noDec s = .ok ((o, .nil), s') ∧ s'.pos = s.pos + w.length + o.toBytes.length ∧ s'.log = s.log := by
  obtain ⟨s', h1, h2, h3⟩ := C07_object_read (plain_objAt h r hr hrt) hw file s hin
  exact ⟨s', h1, h2, by simpa using h3⟩

/-- **C08, partial** The same inside an indirect object as written to raw.pdf: the value after `n g obj`. -/
theorem C08_indirect_partial {o : IndObj} (h : Plain o.value) (hn : 0 ≤ o.number ∧ o.number < 2 ^ 63)
    (hg : 0 ≤ o.generation ∧ o.generation < 2 ^ 63) (file r : Bytes)
    (hin : file = o.toBytes ++ r) :
    ∃ s s1 s2 s', readInt file PS.init = ((o.number, true), s) ∧ readInt file s = ((o.generation, true), s1) ∧
      readKeyword file s1 = (b!"obj", s2) ∧ readObj file noDec s2 = .ok ((o.value, .nil), s') ∧ s'.log = [] := by
  obtain ⟨hn0, hn63⟩ := hn
  obtain ⟨hg0, hg63⟩ := hg
  obtain ⟨n, hn⟩ := Int.eq_ofNat_of_zero_le hn0
  obtain ⟨g, hg⟩ := Int.eq_ofNat_of_zero_le hg0
  obtain ⟨ds, n1, n2, n3, n4, -⟩ := natDigits_spec n
  obtain ⟨gs, g1, g2, g3, g4, -⟩ := natDigits_spec g
  have hsp : Blank [32] := .ws (by decide) .nil
  have hnl : Blank [10] := .ws (by decide) .nil
  obtain ⟨tl, htl, hst, hrt⟩ : ∃ tl, file = ds.map decDigit ++ ([32] ++ (gs.map decDigit ++ ([32] ++ (b!"obj" ++ ([10] ++ (o.value.toBytes ++ tl)))))) ∧
      Stops tl ∧ ¬ RefTail tl := by
    rw [IndObj.toBytes, hn, hg, intDigits_nat, intDigits_nat, n1, g1] at hin
    cases hs : o.stream with
    | none =>
      rw [hs] at hin
      refine ⟨10 :: (b!"endobj\n" ++ r), ?_, stops_of (by decide), ?_⟩
      · rw [hin]; simp
      · apply not_refTail_lInt
        rw [show ∀ x : Bytes, 10 :: x = [10] ++ x from fun _ => rfl, lInt_blank hnl]
        exact congrArg _ (lInt_nondigit (by decide) (by decide) (by decide) _)
    | some d =>
      rw [hs] at hin
      refine ⟨10 :: (b!"stream\n" ++ (d ++ (b!"\nendstream\nendobj\n" ++ r))), ?_, stops_of (by decide), ?_⟩
      · rw [hin]; simp
      · apply not_refTail_lInt
        rw [show ∀ x : Bytes, 10 :: x = [10] ++ x from fun _ => rfl, lInt_blank hnl]
        exact congrArg _ (lInt_nondigit (by decide) (by decide) (by decide) _)
  clear hin
  obtain ⟨y, s1, a1, a2, a3, a4⟩ := C05_int_modulo (w := []) .nil n2 n3 (r := [32] ++ (gs.map decDigit ++ ([32] ++ (b!"obj" ++ ([10] ++ (o.value.toBytes ++ tl))))))
    (by rintro b t ⟨⟩; decide) file PS.init (by rw [htl]; rfl)
  have d1 : file.drop s1.pos = [32] ++ (gs.map decDigit ++ ([32] ++ (b!"obj" ++ ([10] ++ (o.value.toBytes ++ tl))))) := by
    rw [a3, htl]
    have : PS.init.pos + ([] : Bytes).length + ds.length = (ds.map decDigit).length := by simp [PS.init]
    rw [this, List.drop_left]
  obtain ⟨z, s2, b1, b2, b3, b4⟩ := C05_int_modulo (w := [32]) hsp g2 g3 (r := [32] ++ (b!"obj" ++ ([10] ++ (o.value.toBytes ++ tl))))
    (by rintro b t ⟨⟩; decide) file s1 d1
  have d2 : file.drop s2.pos = [32] ++ (b!"obj" ++ ([10] ++ (o.value.toBytes ++ tl))) := by
    have e : s2.pos = s1.pos + ([32] ++ gs.map decDigit).length := by rw [b3]; simp; omega
    rw [e, ← List.drop_drop, d1, ← List.append_assoc, List.drop_left]
  obtain ⟨c1, c2⟩ := readKeyword_spec file s2
  have hk : lKeyword (rest file s2) = ⟨b!"obj", 4, []⟩ := by
    rw [show rest file s2 = _ from d2, lKeyword_blank hsp]
    have hz : skipWs false (b!"obj" ++ ([10] ++ (o.value.toBytes ++ tl))) = 0 := skipWs_cons (by decide) (by decide)
    rw [lKeyword, hz, List.drop_zero, kwGo_regular (k := b!"obj") (r := [10] ++ (o.value.toBytes ++ tl)) (by decide) (stops_of (by decide))]
    rfl
  rw [hk] at c1 c2
  have d3 : file.drop (readKeyword file s2).2.pos = [10] ++ (o.value.toBytes ++ tl) := by
    rw [c2.pos, ← List.drop_drop, d2]; rfl
  obtain ⟨s4, e1, -, e3⟩ := C08_reread_partial h hnl hst hrt file _ d3
  have hy : y = o.number := by
    obtain ⟨u1, u2, k, u3⟩ := a2
    rw [n4] at u3; omega
  have hz : z = o.generation := by
    obtain ⟨u1, u2, k, u3⟩ := b2
    rw [g4] at u3; omega
  refine ⟨s1, s2, (readKeyword file s2).2, s4, by rw [a1, hy], by rw [b1, hz], Prod.ext c1 rfl, e1, ?_⟩
  rw [e3, c2.log, b4, a4]
  rfl

/-- **C08, refuted** A string with an unbalanced parenthesis is not quoted. -/
theorem C08_string_false : ∃ o s', readObj (Obj.toBytes (.str b!")")) noDec PS.init = .ok ((o, .nil), s') ∧ o ≠ .str b!")" :=
  ⟨.str [], _, rfl, by decide⟩

/-- **C08, refuted** A name with a space in it is not quoted. -/
theorem C08_name_false : ∃ o s', readObj (Obj.toBytes (.name b!"A B")) noDec PS.init = .ok ((o, .nil), s') ∧ o ≠ .name b!"A B" :=
  ⟨.name b!"A", _, rfl, by decide⟩

/-- **C08, refuted** One million prints as `1e+06`, which reads as 1. -/
theorem C08_number_false : ∃ o s', readObj (Obj.toBytes (.num (intNum false 1000000))) noDec PS.init = .ok ((o, .nil), s') ∧
    o = .num (intNum false 1) := by
  have h : Obj.toBytes (.num (intNum false 1000000)) = b!"1e+06" := by decide +kernel
  rw [h]
  exact ⟨_, _, rfl, by decide +kernel⟩

/-- `[/A (a(b)c) -12 <</K 3 0 R/L true>>]` -/
example : Plain (.arr [.name b!"A", .str b!"a(b)c", .num (intNum true 12), .dict [(b!"K", .ref (3 : Nat) (0 : Nat)), (b!"L", .kw b!"true")]]) :=
  .arr <| .cons (.name (.plain (by decide) (by decide) .nil)) <|
    .cons (.str (.plain (by decide) (by decide) (by decide) (.parens (v := b!"b") (t := b!"b") (e := []) (v' := b!"c")
      (.plain (by decide) (by decide) (by decide) .nil) (.plain (by decide) (by decide) (by decide) .nil)))) <|
    .cons (.int (by decide)) <|
    .cons (.dict (.cons (.plain (by decide) (by decide) .nil) (.ref (by decide) (by decide)) <|
      .cons (.plain (by decide) (by decide) .nil) (.kw (by decide) (by decide) (by decide) (by decide) (by decide) (by decide) (by decide)) .nil) (by decide)) .nil

/-- `-3.5` and `0.1` -/
example : Plain (.num (.fin (mkRat (-7) 2))) ∧ ∃ q, roundQ (mkRat 1 10) = .fin q ∧ Plain (.num (.fin q)) := by
  constructor
  · have h : roundQ ((3 : Nat) + ((5 : Nat) : Rat) / 10) = .fin (mkRat 7 2) := by decide +kernel
    have := Plain.tenth (neg := true) (n := 3) (d := 5) (q := mkRat 7 2) (by decide) (by decide) (by decide) (h ▸ (roundQ_rounded (by positivity)).1)
    have e : mkRat (-7) 2 = -mkRat 7 2 := by decide +kernel
    rw [e]
    exact this
  · obtain ⟨q, hq⟩ := roundQ_finite (q := (0 : Nat) + ((1 : Nat) : Rat) / 10) (by positivity) (half_lt (n := 0) (by norm_num) |> lt_trans (by norm_num))
    refine ⟨q, ?_, Plain.tenth (neg := false) (n := 0) (d := 1) (by decide) (by decide) (by decide) (hq ▸ (roundQ_rounded (by positivity)).1)⟩
    rw [← hq]
    decide +kernel

theorem intDigits_decimal (n : Int) : Decimal n (intDigits n) := by
  obtain ⟨ds, h1, h2, h3, h4, -, h6⟩ := natDigits_spec n.natAbs
  have h7 : 0 < Spec.decVal ds → 10 ^ (ds.length - 1) ≤ Spec.decVal ds := by rw [h4]; exact h6
  clear h6
  rw [intDigits]
  split
  · rw [h1]
    obtain rfl : -(Spec.decVal ds : Int) = n := by omega
    exact .neg h2 h3 (by omega) (h7 (by omega))
  · rw [h1]
    have e : (Spec.decVal ds : Int) = n := by omega
    rw [← e]
    refine .nonneg h2 h3 fun hl => ?_
    rcases Nat.eq_zero_or_pos (Spec.decVal ds) with h0 | h0
    · exfalso
      have : ds.length = 1 := by
        have e0 : n.natAbs = 0 := by omega
        have := congrArg List.length h1
        rw [e0, List.length_map] at this
        exact this.symm
      omega
    · exact h7 h0

/-- **C08** Numbers of objects and references, negative ones too (`-1 0 R` is read as a reference), are printed in decimal. -/
theorem C08_numbers (n g : Int) (v : Obj) (d : Option Bytes) : ∃ a b, Decimal n a ∧ Decimal g b ∧ (Obj.ref n g).toBytes = a ++ b!" " ++ b ++ b!" R" ∧
    ∃ rest, (IndObj.mk n g v d).toBytes = a ++ b!" " ++ b ++ b!" obj\n" ++ rest :=
  ⟨_, _, intDigits_decimal n, intDigits_decimal g, by rw [Obj.toBytes], _, by rw [IndObj.toBytes, List.append_assoc, List.append_assoc, List.append_assoc, List.append_assoc]⟩

example : (match readObj b!"-1 0 R" noDec PS.init with | .ok ((o, .nil), _) => decide (o = .ref (-1) 0) | _ => false) = true := by decide +kernel

end Pdf.Props
