import Verif.Lemmas.PrintTenths
/-!
What the `String()` methods print.
-/

namespace Pdf
open Spec

/-! ### Objects -/

theorem digit_byte {d : Nat} (h : d < 10) : (48 ≤ (decDigit d).toNat ∧ (decDigit d).toNat ≤ 57) := by
  rw [decDigit, UInt8.toNat_ofNat']; omega

theorem not_refTail_lInt {r : Bytes} (h : lInt r = none) : ¬ RefTail r := by
  rw [refTail_iff]
  rintro ⟨g, m, h1, -⟩
  rw [h] at h1; cases h1

theorem lInt_nondigit {b : UInt8} (h1 : ¬ IsWhite b) (h2 : b ≠ 37) (h3 : ¬ (48 ≤ b.toNat ∧ b.toNat ≤ 57)) (t : Bytes) : lInt (b :: t) = none := by
  rw [lInt, skipWs_zero h1 h2]
  rw [← isDigit_iff] at h3
  simp [h3]

theorem natDigits_cons (n : Nat) : ∃ b u, natDigits n = b :: u ∧ (48 ≤ b.toNat ∧ b.toNat ≤ 57) := by
  obtain ⟨ds, h1, h2, h3, -⟩ := natDigits_spec n
  cases ds with
  | nil => exact absurd rfl h3
  | cons d ds => exact ⟨_, _, by rw [h1, List.map_cons], digit_byte (h2 d (by simp))⟩

theorem dig : ∀ b : UInt8, 48 ≤ b.toNat ∧ b.toNat ≤ 57 → (¬ IsWhite b ∧ b ≠ 37) ∧ b ≠ 82 := by
  apply forall_u8; decide +kernel

/-- First byte of what a plain value prints. -/
theorem plain_head {o : Obj} (h : Plain o) : ∃ b u, o.toBytes = b :: u ∧ (¬ IsWhite b ∧ b ≠ 37) ∧ (b = 82 → ∃ k, o = .kw k) ∧
    ((48 ≤ b.toNat ∧ b.toNat ≤ 57) → (∃ n, n < 1000000 ∧ o = .num (intNum false n)) ∨ (∃ n g : Nat, o = .ref n g) ∨ ∃ n d, d < 10 ∧ o.toBytes = natDigits n ++ [46, decDigit d]) := by
  cases h with
  | @kw b k hb hd _ _ _ _ _ =>
    refine ⟨b, k, rfl, ⟨hb.1, ?_⟩, fun _ => ⟨_, rfl⟩, fun h => absurd h hd⟩
    rintro rfl; exact hb.2 (by decide)
  | @int neg n hn =>
    rw [Obj.toBytes, intNum_toBytes neg hn]
    cases neg with
    | true => exact ⟨45, natDigits n, rfl, by decide, (fun h => by cases h), fun h => absurd h (by decide)⟩
    | false =>
      obtain ⟨b, u, h1, h2⟩ := natDigits_cons n
      exact ⟨b, u, by simpa using h1, (dig b h2).1, fun h => absurd h (dig b h2).2, fun _ => .inl ⟨n, hn, rfl⟩⟩
  | @tenth neg n d q hn hd hd9 hq =>
    obtain ⟨e1, e2⟩ := tenths_toBytes hn hd hd9 hq
    cases neg with
    | true =>
      simp only [if_true]
      rw [Obj.toBytes, e2]
      exact ⟨45, _, rfl, by decide, (fun h => by cases h), fun h => absurd h (by decide)⟩
    | false =>
      simp only [Bool.false_eq_true, if_false]
      rw [Obj.toBytes, e1]
      obtain ⟨b, u, h1, h2⟩ := natDigits_cons n
      exact ⟨b, u ++ [46, decDigit d], by rw [h1]; rfl, (dig b h2).1, fun h => absurd h (dig b h2).2, fun _ => .inr (.inr ⟨n, d, hd9, rfl⟩)⟩
  | @name v hv => exact ⟨47, v, by rw [Obj.toBytes], by decide, (fun h => by cases h), fun h => absurd h (by decide)⟩
  | @str v hv => exact ⟨40, v ++ [41], by rw [Obj.toBytes]; rfl, by decide, (fun h => by cases h), fun h => absurd h (by decide)⟩
  | @ref n g hn hg =>
    obtain ⟨b, u, h1, h2⟩ := natDigits_cons n
    refine ⟨b, u ++ [32] ++ intDigits g ++ [32, 82], by rw [Obj.toBytes, intDigits_nat, h1]; rfl, (dig b h2).1, fun h => absurd h (dig b h2).2, fun _ => .inr (.inl ⟨n, g, rfl⟩)⟩
  | @arr os _ => exact ⟨91, Obj.arrBytes os ++ [93], by rw [Obj.toBytes]; rfl, by decide, (fun h => by cases h), fun h => absurd h (by decide)⟩
  | @dict es _ _ => exact ⟨60, 60 :: (Obj.dictBytes es ++ [62, 62]), by rw [Obj.toBytes]; simp, by decide, (fun h => by cases h), fun h => absurd h (by decide)⟩

theorem stops_of {b : UInt8} {t : Bytes} (h : ¬ Spec.IsRegular b) : Stops (b :: t) := by rintro c u ⟨⟩; exact h

theorem stops_noDigit {r : Bytes} (h : Stops r) : NoDigit r ∧ ∀ u, r ≠ 46 :: u := by
  have dig : ∀ b : UInt8, 48 ≤ b.toNat ∧ b.toNat ≤ 57 → Spec.IsRegular b := by
    apply forall_u8; decide +kernel
  refine ⟨fun b t e hb => h b t e (dig b hb), ?_⟩
  rintro u rfl
  exact h 46 u rfl (by decide)

/-- What follows an element of an array of plain values does not make it a reference. -/
theorem plainArr_tail {os : List Obj} (h : PlainArr os) (hne : os ≠ []) (r : Bytes) : ¬ RefTail (32 :: (Obj.arrBytes os ++ 93 :: r)) := by
  cases h with
  | nil => exact absurd rfl hne
  | @cons o os ho hos =>
  obtain ⟨b, u, hb, ⟨hw, hp⟩, -, hd⟩ := plain_head ho
  have hsp : Blank [32] := .ws (by decide) .nil
  by_cases hdig : 48 ≤ b.toNat ∧ b.toNat ≤ 57
  · have key : ∀ (n : Nat) (rest : Bytes), NoDigit rest → (lKeyword rest).val ≠ [82] → ¬ RefTail (32 :: (natDigits n ++ rest)) := by
      intro n rest hr hk
      obtain ⟨ds, h1, h2, h3, -⟩ := natDigits_spec n
      obtain ⟨y, -, hy⟩ := lInt_digits hsp ds h2 h3 rest hr
      rw [refTail_iff]
      rintro ⟨g, m, e1, e2⟩
      rw [h1] at e1 e2
      rw [show 32 :: (ds.map decDigit ++ rest) = [32] ++ (ds.map decDigit ++ rest) from rfl] at e1 e2
      rw [hy] at e1
      injection e1 with e1
      injection e1 with _ e3
      subst e3
      have hlen : ([32] : Bytes).length + ds.length = ([32] ++ ds.map decDigit).length := by simp; omega
      rw [hlen, ← List.append_assoc, List.drop_left] at e2
      exact hk e2
    rcases hd hdig with ⟨n, hn, rfl⟩ | ⟨n, g, rfl⟩ | ⟨n, d, hd9, e⟩
    · rw [Obj.arrBytes, Obj.toBytes, intNum_toBytes false hn]
      simp only [Bool.false_eq_true, if_false, List.nil_append, List.append_assoc]
      apply key
      · cases os with
        | nil => exact (stops_noDigit (stops_of (by decide))).1
        | cons o2 os2 => exact (stops_noDigit (stops_of (by decide))).1
      · cases hos with
        | nil =>
          simp only [List.isEmpty_nil, if_true, List.nil_append, Obj.arrBytes]
          have hz : skipWs false (93 :: r) = 0 := skipWs_cons (by decide) (by decide)
          rw [lKeyword, hz, List.drop_zero, kwGo_stop (stops_of (by decide))]
          simp
        | @cons o2 os2 h2 hos2 =>
          simp only [List.isEmpty_cons, Bool.false_eq_true, if_false]
          rw [lKeyword_blank hsp]
          simp only
          obtain ⟨b2, u2, hb2, ⟨hw2, hp2⟩, hR, -⟩ := plain_head h2
          have hz : ∀ t, skipWs false (b2 :: t) = 0 := fun t => skipWs_zero hw2 hp2
          rw [Obj.arrBytes, hb2]
          simp only [List.cons_append]
          rw [lKeyword, hz, List.drop_zero]
          intro hk
          simp only at hk
          have hb82 : b2 = 82 := by
            rw [kwGo] at hk
            split at hk
            · cases hk
            · injection hk
          obtain ⟨k, hk'⟩ := hR hb82
          subst hk'
          cases h2 with
          | @kw c k' hc _ _ _ _ hk' hne' =>
            rw [Obj.toBytes] at hb2
            have hst : Stops ((if os2.isEmpty then [] else [32]) ++ (Obj.arrBytes os2 ++ 93 :: r)) := by
              cases os2 with
              | nil => exact stops_of (by decide)
              | cons _ _ => exact stops_of (by decide)
            have : kwGo ((c :: k') ++ ((if os2.isEmpty then [] else [32]) ++ (Obj.arrBytes os2 ++ 93 :: r))) = c :: k' :=
              kwGo_regular (by intro x hx; rcases List.mem_cons.1 hx with rfl | hx; exact hc; exact hk' x hx) hst
            rw [hb2] at this
            simp only [List.append_assoc, List.cons_append] at hk this
            rw [hk] at this
            exact hne' (hb2.trans this.symm)
    · rw [Obj.arrBytes, Obj.toBytes, intDigits_nat, intDigits_nat]
      simp only [List.append_assoc]
      apply key
      · exact (stops_noDigit (stops_of (by decide))).1
      · rw [lKeyword_blank hsp]
        obtain ⟨c, v, hc, hcd⟩ := natDigits_cons g
        have hc' : ¬ IsWhite c ∧ c ≠ 37 ∧ c ≠ 82 := by
          have := dig c hcd; exact ⟨this.1.1, this.1.2, this.2⟩
        rw [hc, List.cons_append, lKeyword, skipWs_zero hc'.1 hc'.2.1, List.drop_zero]
        intro hk
        simp only at hk
        rw [kwGo] at hk
        split at hk
        · cases hk
        · injection hk with hk _; exact hc'.2.2 hk
    · rw [Obj.arrBytes, e]
      simp only [List.append_assoc]
      apply key
      · rintro b t ⟨⟩; decide
      · rw [List.cons_append, lKeyword, skipWs_zero (by decide) (by decide), List.drop_zero]
        intro hk
        simp only at hk
        rw [kwGo] at hk
        split at hk
        · cases hk
        · injection hk with hk _; exact absurd hk (by decide)
  · refine not_refTail_lInt ?_
    rw [Obj.arrBytes, hb, show ∀ x : Bytes, 32 :: x = [32] ++ x from fun _ => rfl, lInt_blank hsp]
    simp only [List.cons_append]
    rw [lInt_nondigit hw hp hdig]
    rfl

theorem set_new {d : Dict} {k : Bytes} {v : Obj} (h : k ∉ d.map (·.1)) : Assoc.set d k v = d ++ [(k, v)] := by
  induction d with
  | nil => rfl
  | cons p d ih =>
    obtain ⟨a, b⟩ := p
    simp only [List.map_cons, List.mem_cons, not_or] at h
    rw [Assoc.set, if_neg (Ne.symm h.1), ih h.2]
    rfl

theorem dictOf_nodup {es : List (Bytes × Obj)} (h : (es.map (·.1)).Nodup) : dictOf es = es := by
  have key : ∀ (es d : List (Bytes × Obj)), ((d ++ es).map (·.1)).Nodup → es.foldl (fun (d : Dict) e => Assoc.set d e.1 e.2) d = d ++ es := by
    intro es
    induction es with
    | nil => intro d _; simp
    | cons p es ih =>
      intro d hn
      rw [List.foldl_cons, set_new, ih _ (by simpa using hn)]
      · simp
      · rw [List.map_append, List.nodup_append] at hn
        intro hm
        exact hn.2.2 _ hm p.1 (by simp) rfl
  have := key es [] (by simpa using h)
  simpa [dictOf] using this

/-- A plain value prints as a spelling of itself. -/
theorem plain_objAt {o : Obj} (h : Plain o) : ∀ r, Stops r → ¬ RefTail r → ObjAt o o.toBytes r [] := by
  refine Plain.rec
    (motive_1 := fun o _ => ∀ r, Stops r → ¬ RefTail r → ObjAt o o.toBytes r [])
    (motive_2 := fun os _ => ∀ w r, Blank w → ArrAt os (w ++ (Obj.arrBytes os ++ [93])) r [])
    (motive_3 := fun es _ => ∀ r, DictAt es (Obj.dictBytes es ++ [62, 62]) r [])
    ?kw ?int ?tenth ?name ?str ?ref ?arr ?dict ?anil ?acons ?dnil ?dcons h
  case kw =>
    intro b k hb h1 h2 h3 h4 hk _ r hr _
    rw [Obj.toBytes]
    exact .kw hb h1 h2 h3 h4 hk hr
  case int =>
    intro neg n hn r hr hrt
    rw [Obj.toBytes, intNum_toBytes neg hn]
    obtain ⟨ds, h1, h2, h3, h4, -⟩ := natDigits_spec n
    rw [h1]
    have := ObjAt.int (neg := neg) (sg := if neg then [45] else []) (ds := ds) (r := r) (by cases neg; exact .none; exact .minus) h2 h3
      (by rw [h4]; omega) (stops_noDigit hr).1 (stops_noDigit hr).2 hrt
    rw [h4] at this
    exact this
  case tenth =>
    intro neg n d q hn hd hd9 hq r hr hrt
    obtain ⟨e1, e2⟩ := tenths_toBytes hn hd hd9 hq
    obtain ⟨ds, h1, h2, h3, h4, -⟩ := natDigits_spec n
    have hx := whole_exact h2 (by rw [h4]; omega)
    rw [h4] at hx
    have hy := tenth_digits (by omega) hd9 hq
    have q0 : 0 < q := by
      have b := abs_le.1 (tenths_near hn hd9 hq)
      have hd1 : (1 : Rat) ≤ d := by exact_mod_cast hd
      have hn0 : (0 : Rat) ≤ n := Nat.cast_nonneg n
      linarith
    have := ObjAt.real (neg := neg) (sg := if neg then [45] else []) (ds := ds) (fs := [d]) (z := .fin (if neg then -q else q)) (r := r) (by cases neg; exact .none; exact .minus) h2
      (by simpa using hd9) (by simp) hx hy (by
        cases neg with
        | false => rfl
        | true => exact .fin q0) (stops_noDigit hr).1 hrt
    cases neg with
    | false =>
      simp only [Bool.false_eq_true, if_false] at this ⊢
      rw [Obj.toBytes, e1, h1]
      exact this
    | true =>
      simp only [if_true] at this ⊢
      rw [Obj.toBytes, e2, h1]
      exact this
  case name => intro v hv r hr _; rw [Obj.toBytes]; exact .name hv hr
  case str => intro v hv r _ _; rw [Obj.toBytes]; exact .str hv
  case ref =>
    intro n g hn hg r hr _
    rw [Obj.toBytes, intDigits_nat, intDigits_nat]
    obtain ⟨ds, h1, h2, h3, h4, -⟩ := natDigits_spec n
    obtain ⟨gs, g1, g2, g3, g4, -⟩ := natDigits_spec g
    have := ObjAt.ref (ds := ds) (w := [32]) (gs := gs) (w' := [32]) (r := r) h2 h3 (by rw [h4]; exact hn) (.ws (by decide) .nil) (by decide)
      g2 g3 (by rw [g4]; exact hg) (.ws (by decide) .nil) (by decide) hr
    rw [h4, g4, ← h1, ← g1] at this
    simpa using this
  case arr =>
    intro os _ ih r _ _
    rw [Obj.toBytes]
    exact .arr (ih [] r .nil)
  case dict =>
    intro es _ hn ih r _ _
    have := ObjAt.dict (ih r)
    rw [dictOf_nodup hn] at this
    rw [Obj.toBytes]
    simpa using this
  case anil => intro w r hw; exact .nil hw
  case acons =>
    intro o os _ hos iho ihos w r hw
    cases hos with
    | nil =>
      have h1 := iho ([93] ++ r) (stops_of (by decide)) (not_refTail_lInt (lInt_nondigit (by decide) (by decide) (by decide) _))
      have := ArrAt.cons (w := w) hw h1 (ihos [] r .nil)
      simpa [Obj.arrBytes] using this
    | @cons o2 os2 h2 hos2 =>
      have hsp : Blank [32] := .ws (by decide) .nil
      have hu : ([32] ++ (Obj.arrBytes (o2 :: os2) ++ [93])) ++ r = 32 :: (Obj.arrBytes (o2 :: os2) ++ 93 :: r) := by simp
      have h1 := iho (([32] ++ (Obj.arrBytes (o2 :: os2) ++ [93])) ++ r) (by rw [hu]; exact stops_of (by decide))
        (by rw [hu]; exact plainArr_tail (.cons h2 hos2) (by simp) r)
      have := ArrAt.cons (w := w) hw h1 (ihos [32] r hsp)
      rw [Obj.arrBytes]
      simpa using this
  case dnil => intro r; exact .nil .nil
  case dcons =>
    intro k o es hk ho hes iho ih r
    obtain ⟨c, v, hc, hcw, hcd⟩ : ∃ c v, (Obj.dictBytes es ++ [62, 62]) ++ r = c :: v ∧ ¬ Spec.IsRegular c ∧ lInt (c :: v) = none := by
      cases hes with
      | nil => exact ⟨62, 62 :: r, rfl, by decide, lInt_nondigit (by decide) (by decide) (by decide) _⟩
      | @cons k2 o2 es2 _ _ _ =>
        exact ⟨47, k2 ++ ([32] ++ (o2.toBytes ++ (Obj.dictBytes es2 ++ ([62, 62] ++ r)))), by simp [Obj.dictBytes], by decide,
          lInt_nondigit (by decide) (by decide) (by decide) _⟩
    have h1 := iho ((Obj.dictBytes es ++ [62, 62]) ++ r) (by rw [hc]; exact stops_of hcw) (by rw [hc]; exact not_refTail_lInt hcd)
    have := DictAt.cons (w := []) (w' := [32]) .nil hk (.ws (by decide) .nil) (stops_of (by decide)) h1 (ih r)
    rw [Obj.dictBytes]
    simpa using this

end Pdf
