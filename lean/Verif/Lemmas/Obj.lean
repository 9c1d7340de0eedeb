import Verif.Lemmas.Num
import Verif.Spec.Grammar
/-!
Objects: what `lObj` does on the texts of `Spec.Grammar`.
-/

namespace Pdf
open Spec

theorem LR.eta {α : Type} (q : LR α) : (⟨q.val, q.n, q.errs⟩ : LR α) = q := rfl

theorem lskip_zero {β : Type} (l : Bytes) (g : Bytes → Res (LR β)) : lskip 0 l g = g l := by
  simp only [lskip, lthen, Res.bind_ok, List.drop_zero, Nat.zero_add, List.nil_append]
  cases g l <;> rfl

theorem lskip_lskip {β : Type} (a b : Nat) (l : Bytes) (g : Bytes → Res (LR β)) :
    lskip a l (fun t => lskip b t g) = lskip (a + b) l g := by
  simp only [lskip, lthen, Res.bind_ok, List.drop_drop]
  cases g (l.drop (a + b)) <;> simp [Nat.add_assoc]

theorem lskip_ok {β : Type} {a : Nat} {l : Bytes} {g : Bytes → Res (LR β)} {q : LR β} (h : g (l.drop a) = .ok q) :
    lskip a l g = .ok ⟨q.val, a + q.n, q.errs⟩ := by
  simp only [lskip, lthen, Res.bind_ok, h, List.nil_append]

theorem lthen_ok {α β : Type} {l : Bytes} {x : Res (LR α)} {g : α → Bytes → Res (LR β)} {r : LR α} {q : LR β}
    (h1 : x = .ok r) (h2 : g r.val (l.drop r.n) = .ok q) : lthen l x g = .ok ⟨q.val, r.n + q.n, r.errs ++ q.errs⟩ := by
  simp only [lthen, h1, h2, Res.bind_ok]

/-- White space and comments in front are skipped. -/
theorem lObj_blank {w : Bytes} (hw : Blank w) (dec : Bytes → Res Bytes) (f : Nat) (l : Bytes) :
    lObj dec f (w ++ l) = lskip w.length (w ++ l) fun t => lObj dec f t := by
  cases f with
  | zero => simp [lObj, lskip, lthen]
  | succ f =>
    obtain ⟨G, hG⟩ : ∃ G, ∀ l, lObj dec (f + 1) l = lskip (skipWs false l) l G := by
      refine ⟨?_, fun l => ?_⟩
      rotate_left
      · rw [lObj]
    simp only [hG]
    rw [lskip, lthen, Res.bind_ok, drop_blank hw, skipWs_blank hw]
    simp only [lskip, lthen, Res.bind_ok, List.drop_left]
    cases G (l.drop (skipWs false l)) <;> simp [Nat.add_assoc]

theorem lObj_blank_ok {w : Bytes} (hw : Blank w) {dec : Bytes → Res Bytes} {f : Nat} {l : Bytes} {q : LR (Obj × RErr)}
    (h : lObj dec f l = .ok q) : lObj dec f (w ++ l) = .ok ⟨q.val, w.length + q.n, q.errs⟩ := by
  rw [lObj_blank hw, lskip_ok (q := q) (by simpa using h)]

theorem isDigit_char : ∀ b : UInt8, (isDigit b || b == ch%'+' || b == ch%'-' || b == ch%'.') = true →
    isWs b = false ∧ b ≠ ch%'%' ∧ (b == ch%'/') = false ∧ (b == ch%'[') = false ∧ (b == ch%']') = false ∧ (b == ch%'(') = false ∧
      (b == ch%')') = false ∧ (b == ch%'<') = false ∧ (b == ch%'>') = false := by
  apply forall_u8; decide +kernel

theorem regular_char : ∀ b : UInt8, Spec.IsRegular b →
    isWs b = false ∧ b ≠ ch%'%' ∧ (b == ch%'/') = false ∧ (b == ch%'[') = false ∧ (b == ch%']') = false ∧ (b == ch%'(') = false ∧
      (b == ch%')') = false ∧ (b == ch%'<') = false ∧ (b == ch%'>') = false := by
  apply forall_u8; decide +kernel

theorem take2_ne {b c d : UInt8} {t : Bytes} (h : (b == c) = false) : ((b :: t).take 2 == [c, d]) = false := by
  have h' : b ≠ c := by simpa using h
  cases t with
  | nil => simp [h']
  | cons x t => simp [h']

theorem lObj_num {b : UInt8} (h : (isDigit b || b == ch%'+' || b == ch%'-' || b == ch%'.') = true) (dec : Bytes → Res Bytes) (f : Nat) (t : Bytes) :
    lObj dec (f + 1) (b :: t) = .ok ⟨((lNumOrRef (b :: t)).val, .nil), (lNumOrRef (b :: t)).n, (lNumOrRef (b :: t)).errs⟩ := by
  obtain ⟨h1, h2, h3, h4, h5, h6, h7, h8, h9⟩ := isDigit_char b h
  rw [lObj, skipWs_cons h1 h2, lskip_zero]
  simp only [h3, h4, h5, h6, h7, h8, h9, take2_ne h8, take2_ne h9, h, if_true, if_false, Bool.false_eq_true]

theorem lObj_kw {b : UInt8} (hr : Spec.IsRegular b) (h : (isDigit b || b == ch%'+' || b == ch%'-' || b == ch%'.') = false) (dec : Bytes → Res Bytes) (f : Nat)
    (t : Bytes) : lObj dec (f + 1) (b :: t) = .ok ⟨(.kw (lKeyword (b :: t)).val, .nil), (lKeyword (b :: t)).n, []⟩ := by
  obtain ⟨h1, h2, h3, h4, h5, h6, h7, h8, h9⟩ := regular_char b hr
  rw [lObj, skipWs_cons h1 h2, lskip_zero]
  simp only [h3, h4, h5, h6, h7, h8, h9, take2_ne h8, take2_ne h9, h, if_false, Bool.false_eq_true]
  rfl

theorem lObj_name (dec : Bytes → Res Bytes) (f : Nat) (t : Bytes) :
    lObj dec (f + 1) (47 :: t) = .ok ⟨(.name (nameGo 0 t).val, .nil), 1 + (nameGo 0 t).n, (nameGo 0 t).errs⟩ := by
  have hz : skipWs false (47 :: t) = 0 := skipWs_cons (by decide) (by decide)
  rw [lObj, hz, lskip_zero]
  simp only [lName, hz, List.drop_zero]
  rfl

theorem lObj_str (dec : Bytes → Res Bytes) (f : Nat) (t : Bytes) :
    lObj dec (f + 1) (40 :: t) = lDec dec (LR.pre [] 1 [] (strGo 0 1 t)) := by
  have hz : skipWs false (40 :: t) = 0 := skipWs_cons (by decide) (by decide)
  rw [lObj, hz, lskip_zero]
  simp only [lStr, hz, List.drop_zero]
  rfl

theorem lObj_hex (dec : Bytes → Res Bytes) (f : Nat) (t : Bytes) (ht : ∀ u, t ≠ 60 :: u) :
    lObj dec (f + 1) (60 :: t) = lDec dec (LR.pre [] 1 [] (hexGo false none t)) := by
  have hz : skipWs false (60 :: t) = 0 := skipWs_cons (by decide) (by decide)
  rw [lObj, hz, lskip_zero]
  simp only [lHex, hz, List.drop_zero]
  have h2 : (List.take 2 (60 :: t) == b!"<<") = false := by
    cases t with
    | nil => rfl
    | cons b u =>
      have : b ≠ 60 := by rintro rfl; exact ht u rfl
      simp [this]
  have h3 : (List.take 2 (60 :: t) == b!">>") = false := by
    cases t <;> simp
  simp only [h2, h3, if_false, Bool.false_eq_true]
  rfl

theorem lObj_arr (dec : Bytes → Res Bytes) (f : Nat) (t : Bytes) :
    lObj dec (f + 1) (91 :: t) = lskip 1 (91 :: t) fun u => lthen u (lArr dec f u []) fun a _ => lret (.arr a, .nil) := by
  have hz : skipWs false (91 :: t) = 0 := skipWs_cons (by decide) (by decide)
  rw [lObj, hz, lskip_zero]
  rfl

theorem lObj_dict (dec : Bytes → Res Bytes) (f : Nat) (t : Bytes) :
    lObj dec (f + 1) (60 :: 60 :: t) = lskip 2 (60 :: 60 :: t) fun u => lthen u (lDict dec f u []) fun a _ => lret (.dict a, .nil) := by
  have hz : skipWs false (60 :: 60 :: t) = 0 := skipWs_cons (by decide) (by decide)
  rw [lObj, hz, lskip_zero]
  rfl

theorem lObj_endArr (dec : Bytes → Res Bytes) (f : Nat) (t : Bytes) :
    lObj dec (f + 1) (93 :: t) = .ok ⟨(Obj.null, .endOfArray), 1, []⟩ := by
  have hz : skipWs false (93 :: t) = 0 := skipWs_cons (by decide) (by decide)
  rw [lObj, hz, lskip_zero]
  rfl

theorem lObj_endDict (dec : Bytes → Res Bytes) (f : Nat) (t : Bytes) :
    lObj dec (f + 1) (62 :: 62 :: t) = .ok ⟨(Obj.null, .endOfDictionary), 2, []⟩ := by
  have hz : skipWs false (62 :: 62 :: t) = 0 := skipWs_cons (by decide) (by decide)
  rw [lObj, hz, lskip_zero]
  rfl

theorem lObj_nil (dec : Bytes → Res Bytes) (f : Nat) : lObj dec (f + 1) [] = .ok ⟨(Obj.null, .readError), 0, []⟩ := by
  rw [lObj, show skipWs false [] = 0 from rfl, lskip_zero]
  rfl

/-! ### References -/

theorem white_noDigit {b : UInt8} (h : IsWhite b ∨ b = 37) : ¬ (48 ≤ b.toNat ∧ b.toNat ≤ 57) := by
  rcases h with (h | h | h | h | h | h) | h <;> subst h <;> decide

theorem blank_noDigit {w r : Bytes} (hw : Blank w) (hr : NoDigit r) : NoDigit (w ++ r) := by
  cases hw with
  | nil => exact hr
  | ws hb _ => rintro b t ⟨⟩; exact white_noDigit (.inl hb)
  | comment _ _ _ => rintro b t ⟨⟩; exact white_noDigit (.inr rfl)

theorem kwGo_stop {r : Bytes} (h : Stops r) : kwGo r = [] := by
  cases r with
  | nil => rfl
  | cons b t =>
    have := h b t rfl
    rw [isRegular_iff] at this
    rw [kwGo, if_pos]
    cases h1 : isWs b <;> cases h2 : isDelim b <;> simp_all

theorem kwGo_regular {k r : Bytes} (hk : ∀ c ∈ k, Spec.IsRegular c) (hr : Stops r) : kwGo (k ++ r) = k := by
  induction k with
  | nil => exact kwGo_stop hr
  | cons b k ih =>
    have := (isRegular_iff b).1 (hk b (by simp))
    simp [kwGo, this.1, this.2, ih (fun c hc => hk c (by simp [hc]))]

theorem kwGo_nil {r : Bytes} (h : kwGo r = []) : Stops r := by
  rintro b t rfl
  rw [isRegular_iff]
  rw [kwGo] at h
  rintro ⟨h1, h2⟩
  simp [h1, h2] at h

/-- What the code looks at after a number to recognise a reference. -/
theorem refTail_iff (r : Bytes) : RefTail r ↔ ∃ g m, lInt r = some (g, m) ∧ (lKeyword (r.drop m)).val = b!"R" := by
  constructor
  · rintro ⟨w, ds, w', r', rfl, hw, hw', hne, hd, hs⟩
    have hnd : NoDigit (w' ++ 82 :: r') := blank_noDigit hw' (by rintro b t ⟨⟩; decide)
    obtain ⟨y, -, h2⟩ := lInt_digits hw ds hd hne _ hnd
    refine ⟨y, _, h2, ?_⟩
    have : List.drop (w.length + ds.length) (w ++ (ds.map decDigit ++ (w' ++ 82 :: r'))) = w' ++ 82 :: r' := by
      rw [← List.append_assoc, List.drop_left' (by simp)]
    rw [this]
    simp only [lKeyword]
    have hz : skipWs false (82 :: r') = 0 := skipWs_cons (by decide) (by decide)
    rw [drop_blank hw', hz, List.drop_zero]
    exact kwGo_regular (k := [82]) (by intro c hc; simp at hc; subst hc; decide) hs
  · rintro ⟨g, m, h1, h2⟩
    simp only [lInt] at h1
    cases hl : r.drop (skipWs false r) with
    | nil => rw [hl] at h1; cases h1
    | cons b t =>
      rw [hl] at h1
      simp only at h1
      split at h1
      case isFalse => cases h1
      case isTrue hb =>
      have hbl := (blank_take r false (by rw [hl]; simp)).1 rfl
      obtain ⟨ds, u, hu, hd, hnd⟩ := takeWhile_digits t
      obtain ⟨n, hn, rfl⟩ := digit_decDigit hb
      have hr : r = r.take (skipWs false r) ++ ((n :: ds).map decDigit ++ u) := by
        conv => lhs; rw [← List.take_append_drop (skipWs false r) r, hl, hu]
        rfl
      have hd' : ∀ d ∈ n :: ds, d < 10 := by
        intro d hd'
        rcases List.mem_cons.1 hd' with rfl | h
        · exact hn
        · exact hd d h
      obtain ⟨y, -, hy⟩ := lInt_digits hbl (n :: ds) hd' (by simp) u hnd
      rw [← hr] at hy
      simp only [lInt, hl, hb, if_true] at hy
      rw [h1] at hy
      simp only [Option.some.injEq, Prod.mk.injEq] at hy
      have hdrop : r.drop m = u := by
        rw [hy.2]
        have hgen : ∀ a b : Bytes, r = a ++ b → r.drop a.length = b := by rintro a b rfl; simp
        have := hgen (r.take (skipWs false r) ++ (n :: ds).map decDigit) u (by rw [List.append_assoc]; exact hr)
        rw [List.length_append, List.length_map] at this
        exact this
      rw [hdrop] at h2
      simp only [lKeyword] at h2
      cases hk : u.drop (skipWs false u) with
      | nil => rw [hk] at h2; cases h2
      | cons c r' =>
        rw [hk, kwGo] at h2
        split at h2
        · cases h2
        · simp only [List.cons.injEq] at h2
          have hbu := (blank_take u false (by rw [hk]; simp)).1 rfl
          refine ⟨r.take (skipWs false r), n :: ds, u.take (skipWs false u), r', ?_, hbl, hbu, by simp, hd', kwGo_nil h2.2⟩
          conv => lhs; rw [hr, ← List.take_append_drop (skipWs false u) u, hk, h2.1]

theorem lNumOrRef_num {l : Bytes} (h : ¬ RefTail (l.drop (lNumber l).2)) : lNumOrRef l = ⟨.num (lNumber l).1, (lNumber l).2, []⟩ := by
  rw [refTail_iff] at h
  simp only [lNumOrRef]
  cases hi : lInt (l.drop (lNumber l).2) with
  | none => rfl
  | some p =>
    simp only
    rw [if_pos]
    intro hk
    exact h ⟨p.1, p.2, hi, hk⟩

theorem lNumOrRef_ref {l w w' r : Bytes} {gs : List Nat} (hl : l.drop (lNumber l).2 = w ++ (gs.map decDigit ++ (w' ++ 82 :: r)))
    (hw : Blank w) (hw' : Blank w') (hne : gs ≠ []) (hd : ∀ d ∈ gs, d < 10) (hs : Stops r) :
    ∃ g, IsInt64Of (decVal gs) g ∧
      lNumOrRef l = ⟨.ref (lNumber l).1.toInt g, (lNumber l).2 + w.length + gs.length + w'.length + 1, []⟩ := by
  have hnd : NoDigit (w' ++ 82 :: r) := blank_noDigit hw' (by rintro b t ⟨⟩; decide)
  obtain ⟨y, h1, h2⟩ := lInt_digits hw gs hd hne _ hnd
  refine ⟨y, h1, ?_⟩
  have hdr : List.drop (w.length + gs.length) (w ++ (gs.map decDigit ++ (w' ++ 82 :: r))) = w' ++ 82 :: r := by
    rw [← List.append_assoc, List.drop_left' (by simp)]
  have hz : skipWs false (82 :: r) = 0 := skipWs_cons (by decide) (by decide)
  have hk : kwGo (82 :: r) = [82] := kwGo_regular (k := [82]) (by intro c hc; simp at hc; subst hc; decide) hs
  have hkw : lKeyword (w' ++ 82 :: r) = ⟨[82], w'.length + 1, []⟩ := by
    rw [lKeyword, drop_blank hw', skipWs_blank hw', hz, List.drop_zero, hk]
    rfl
  simp only [lNumOrRef, hl, h2, hdr, hkw]
  rw [if_neg (by decide)]
  simp; omega

theorem signed_eq (neg : Bool) (n : Nat) : signed neg n = intNum neg n := by
  cases neg
  · simp [signed, intNum]
  · simp only [signed, intNum, if_true, F64.neg]
    by_cases h : n = 0
    · simp [h]
    · rw [if_neg h, if_neg]
      exact_mod_cast h

/-! ### Objects -/

theorem hexBody_head {ds : List Nat} {t : Bytes} (h : HexBody ds t 0) : ∀ u, t ≠ 60 :: u := by
  rintro u rfl
  cases h with
  | digit h _ => have := isHex_of_digit h; revert this; decide
  | ws h _ => revert h; decide

theorem sign_num {neg : Bool} {sg : Bytes} {ds : List Nat} (hs : Sign neg sg) (hd : ∀ d ∈ ds, d < 10) (h : sg ++ ds.map decDigit ≠ [])
    (r : Bytes) : ∃ b t, sg ++ (ds.map decDigit ++ r) = b :: t ∧ (isDigit b || b == ch%'+' || b == ch%'-' || b == ch%'.') = true := by
  cases hs with
  | none =>
    cases ds with
    | nil => exact absurd rfl h
    | cons d ds => exact ⟨_, _, rfl, by simp [(decDigit_facts (hd d (by simp))).1]⟩
  | plus => exact ⟨_, _, rfl, by decide⟩
  | minus => exact ⟨_, _, rfl, by decide⟩

theorem lArr_elem {dec : Bytes → Res Bytes} {f1 f2 : Nat} {o : Obj} {t u r : Bytes} {os acc : List Obj} {n : Nat} {e e' : List Err}
    (h1 : lObj dec f1 (t ++ u ++ r) = .ok ⟨(o, .nil), t.length, e⟩) (h2 : lArr dec f2 (u ++ r) (acc ++ [o]) = .ok ⟨os, n, e'⟩) :
    lArr dec (max f1 f2 + 1) (t ++ u ++ r) acc = .ok ⟨os, t.length + n, e ++ e'⟩ := by
  rw [lArr]
  have h1' : lObj dec (max f1 f2) (t ++ u ++ r) = _ := (lObj_fuel dec (Nat.le_max_left f1 f2) (by rw [h1]; simp)).trans h1
  have h2' : lArr dec (max f1 f2) (u ++ r) (acc ++ [o]) = _ := (lArr_fuel dec (Nat.le_max_right f1 f2) (by rw [h2]; simp)).trans h2
  exact lthen_ok (q := ⟨os, n, e'⟩) h1' (by simpa [List.append_assoc] using h2')

end Pdf
