import Verif.Lemmas.Fraction
/-!
C79: numbers of any length. C06: which numbers with a fraction are read as what they say.
-/

namespace Pdf.Props
open Pdf Pdf.Spec

/-- **C79** A number with any digits, with or without sign, point and fraction: each digit is one correctly rounded step, and
the number is read to its end. -/
theorem C79_steps {w sg r : Bytes} {ds : List Nat} {neg : Bool} (hw : Blank w) (hs : Sign neg sg) (hd : ∀ d ∈ ds, d < 10) (fr : Option (List Nat)) (hf : ∀ fs, fr = some fs → ∀ d ∈ fs, d < 10)
    (hne : sg ++ numberText ds fr ≠ []) (hr : NoDigit r) (hp : fr = none → ∀ u, r ≠ 46 :: u) (file : Bytes) (s : PS) (hin : file.drop s.pos = w ++ (sg ++ (numberText ds fr ++ r))) :
    (∃ x y, WholeDouble ds x ∧ FractionDouble x (fr.getD []) y ∧ if neg then Opposite y (readNumber file s).1 else (readNumber file s).1 = y) ∧
      (readNumber file s).2.pos = s.pos + w.length + sg.length + (numberText ds fr).length ∧ (readNumber file s).2.log = s.log := by
  obtain ⟨h1, h2⟩ := readNumber_spec file s
  rw [show rest file s = _ from hin, lNumber_text hw hs hd fr hf hne hr hp] at h1 h2
  obtain ⟨k1, k2⟩ := wholeFold_double ds hd
  obtain ⟨l1, l2⟩ := fracFold_double k2 (fr.getD [])
  refine ⟨⟨_, _, k1, l1, ?_⟩, by rw [h2.pos]; simp; omega, by simpa using h2.log⟩
  rw [h1]
  cases neg
  · rfl
  · exact neg_good l2

/-- **C79** The steps leave no choice: rounding has one result, and so has each number. -/
theorem C79_unique {ds fs : List Nat} {x x' y y' : F64} (h : WholeDouble ds x) (h' : WholeDouble ds x') (k : FractionDouble x fs y) (k' : FractionDouble x' fs y') : x = x' ∧ y = y' := by
  cases WholeDouble.unique h h'
  exact ⟨rfl, FractionDouble.unique k k'⟩

/-- **C79** A whole number of up to 308 digits is read as a finite number with a relative error of about 2^-53 for each of two
steps for each digit. -/
theorem C79_error {w sg r : Bytes} {ds : List Nat} {neg : Bool} (hw : Blank w) (hs : Sign neg sg) (hd : ∀ d ∈ ds, d < 10) (hne : ds ≠ []) (hl : ds.length ≤ 308) (hr : NoDigit r) (hp : ∀ u, r ≠ 46 :: u)
    (file : Bytes) (s : PS) (hin : file.drop s.pos = w ++ (sg ++ (ds.map decDigit ++ r))) :
    ∃ x : Rat, decVal ds * (1 - 1 / 2 ^ 53) ^ (2 * ds.length) ≤ x ∧ x ≤ decVal ds * (1 + 1 / 2 ^ 53) ^ (2 * ds.length) ∧
      (readNumber file s).1 = if neg then (if decVal ds = 0 then .negZero else .fin (-x)) else .fin x := by
  obtain ⟨h1, -⟩ := readNumber_spec file s
  have hne' : sg ++ numberText ds none ≠ [] := by
    cases ds with
    | nil => exact absurd rfl hne
    | cons d ds => simp [numberText]
  rw [show rest file s = w ++ (sg ++ (numberText ds none ++ r)) from hin, lNumber_text hw hs hd none (by intro _ h; cases h) hne' hr (fun _ => hp)] at h1
  obtain ⟨x, k1, k2, k3, k4⟩ := wholeFold_error ds hd hl
  refine ⟨x, k2, k3, ?_⟩
  rw [h1]
  simp only [Option.getD_none, fracFold, k1, F64.neg]
  cases neg
  · rfl
  · rcases k4 with ⟨e1, e2⟩ | ⟨e1, e2⟩
    · simp [e1, e2]
    · have : x ≠ 0 := by intro h; rw [h] at e1; exact absurd e1 (by norm_num)
      have : decVal ds ≠ 0 := by omega
      simp [*]

/-- `-9007199254740993` is 2^53 + 1, in the middle between two doubles; it is read as the even one. -/
example : Sign true b!"-" ∧ numberText [9, 0, 0, 7, 1, 9, 9, 2, 5, 4, 7, 4, 0, 9, 9, 3] none = b!"9007199254740993" ∧ numberText [1] (some [2, 5]) = b!"1.25" ∧
    (readNumber b!"-9007199254740993 " PS.init).1 = .fin (-9007199254740992) ∧ decVal [9, 0, 0, 7, 1, 9, 9, 2, 5, 4, 7, 4, 0, 9, 9, 3] = 2 ^ 53 + 1 :=
  ⟨.minus, rfl, rfl, by decide +kernel, rfl⟩

/-- **C06, partial** A number with a fraction whose digits after the first are all zero, however many, and with a whole part below 2^53, is read as the
double nearest to what it says. Missing: other fractions, which are read wrong (`C06_when_partial`), and larger numbers. -/
theorem C06_tenths_partial {w sg r : Bytes} {ds fs : List Nat} {d : Nat} {neg : Bool} (hw : Blank w) (hs : Sign neg sg) (hd : ∀ d ∈ ds, d < 10) (h1 : d < 10) (hf : ∀ e ∈ fs, e = 0)
    (hr : NoDigit r) (hv : decVal ds < 2 ^ 53) (file : Bytes) (s : PS) (hin : file.drop s.pos = w ++ (sg ++ (ds.map decDigit ++ 46 :: decDigit d :: (fs.map decDigit ++ r)))) :
    ∃ x : Rat, (if neg then Opposite (.fin x) (readNumber file s).1 else (readNumber file s).1 = .fin x) ∧
      Rounded (decVal ds + (decVal (d :: fs) : Rat) / 10 ^ (fs.length + 1)) (.fin x) ∧
      (readNumber file s).2.pos = s.pos + w.length + sg.length + ds.length + 2 + fs.length ∧ (readNumber file s).2.log = s.log := by
  have hf' : ∀ e ∈ d :: fs, e < 10 := by
    intro e he
    rcases List.mem_cons.1 he with rfl | he
    · exact h1
    · rw [hf e he]; norm_num
  obtain ⟨⟨x, y, k1, k2, k3⟩, k4, k5⟩ := C79_steps (fr := some (d :: fs)) hw hs hd (by rintro _ ⟨⟩; exact hf') (by simp [numberText]) hr (by intro h; cases h) file s
    (by rw [hin]; simp [numberText])
  obtain rfl : x = .fin (decVal ds : Nat) := WholeDouble.unique k1 (whole_exact hd hv)
  rw [Option.getD_some] at k2
  obtain ⟨v, b, l1, r1, r2⟩ := tenth_sum (n := decVal ds) hv h1
  have hle : ((decVal ds : Nat) : Rat) + 1 ≤ 2 ^ 53 := by exact_mod_cast hv
  have := fraction_zeros l1 ⟨v, rfl, Nearest.rounded r2.2.double ?_⟩ hf k2
  · subst this
    refine ⟨v, k3, ?_, by rw [k4]; simp [numberText]; omega, k5⟩
    rw [zeros_value hf]
    exact tenths_rounded hv h1 r1 r2
  · exact below_max hv r1 h1 r2

/-- **C06, partial** Which numbers with a fraction are read right: of numbers below 2^32 with up to 100 fraction digits exactly those
whose fraction digits after the first are all zero. Such a number is read as the double nearest to what it says; every other one is
wrong by more than 1/2000. Missing: the numbers that
are read wrong (`C06_fraction_false`), and larger ones. -/
theorem C06_when_partial {w sg r : Bytes} {ds fs : List Nat} {d : Nat} {neg : Bool} (hw : Blank w) (hs : Sign neg sg) (hd : ∀ d ∈ ds, d < 10) (h1 : d < 10) (hf : ∀ d ∈ fs, d < 10)
    (hr : NoDigit r) (hv : decVal ds < 2 ^ 32) (hl : fs.length < 100) (file : Bytes) (s : PS) (hin : file.drop s.pos = w ++ (sg ++ (ds.map decDigit ++ 46 :: decDigit d :: (fs.map decDigit ++ r)))) :
    ∃ x : Rat, (if neg then Opposite (.fin x) (readNumber file s).1 else (readNumber file s).1 = .fin x) ∧
      (|x - (decVal ds + (decVal (d :: fs) : Rat) / 10 ^ (fs.length + 1))| ≤ 1 / 2000 ↔ ∀ e ∈ fs, e = 0) ∧
      ((∀ e ∈ fs, e = 0) → Rounded (decVal ds + (decVal (d :: fs) : Rat) / 10 ^ (fs.length + 1)) (.fin x)) ∧
      (readNumber file s).2.pos = s.pos + w.length + sg.length + ds.length + 2 + fs.length ∧ (readNumber file s).2.log = s.log := by
  have hf' : ∀ e ∈ d :: fs, e < 10 := by
    intro e he
    rcases List.mem_cons.1 he with rfl | he
    exacts [h1, hf e he]
  obtain ⟨⟨x, y, k1, k2, k3⟩, k4, k5⟩ := C79_steps (fr := some (d :: fs)) hw hs hd (by rintro _ ⟨⟩; exact hf') (by simp [numberText]) hr (by intro h; cases h) file s
    (by rw [hin]; simp [numberText])
  have hx : x = .fin (decVal ds : Nat) := WholeDouble.unique k1 (whole_exact hd (by omega))
  subst hx
  rw [Option.getD_some] at k2
  obtain ⟨v, c, rfl, v0, n1, -, -, -, n2, n3⟩ := fraction_near hv k2 rfl hf' (by simp; omega)
  have hlen : ((d :: fs).length : Rat) / 2 ^ 19 ≤ 2 / 10000 := by
    have : ((d :: fs).length : Rat) ≤ 100 := by exact_mod_cast (by simp; omega : (d :: fs).length ≤ 100)
    rw [div_le_iff₀ (by positivity)]
    norm_num at this ⊢; linarith
  have n1' := n1.trans hlen
  rw [abs_le] at n1'
  refine ⟨v, k3, ⟨fun h => ?_, fun h => ?_⟩, fun h => ?_, by rw [k4]; simp [numberText]; omega, k5⟩
  · by_contra hc
    push Not at hc
    have := n2 hc
    rw [abs_le] at h
    simp only [List.length_cons] at *
    linarith [h.2, n1'.1]
  · have := n3 h
    simp only [List.length_cons] at *
    rw [← this, abs_le]
    constructor <;> linarith [n1'.1, n1'.2]
  · obtain ⟨z, g1, g2, -⟩ := C06_tenths_partial hw hs hd h1 h hr (by omega) file s hin
    obtain rfl : v = z := by
      cases neg with
      | false =>
        simp only [Bool.false_eq_true, if_false] at k3 g1
        rw [k3] at g1
        cases g1
        rfl
      | true =>
        simp only [if_true] at k3 g1
        exact opposite_inj k3 g1
    exact g2

/-- `-3.500` is read as -3.5; `0.01` as 0.05. -/
example : Sign true b!"-" ∧ (readNumber b!"-3.500 " PS.init).1 = .fin (mkRat (-7) 2) ∧ (readNumber b!"0.01" PS.init).1 = roundQ (mkRat 5 100) ∧
    (∀ e ∈ [0, 0], e = 0) ∧ ¬ ∀ e ∈ [1], e = 0 :=
  ⟨.minus, by decide +kernel, by decide +kernel, by decide, by decide⟩

end Pdf.Props
