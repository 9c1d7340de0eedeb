import Verif.Lemmas.CursorObj
/-!
Bounds on what the list-level readers consume; enough fuel; independence of the fuel.
-/

namespace Pdf

theorem nameGo_le : ∀ (l : Bytes) (k : Nat), (nameGo k l).n ≤ l.length - k := by
  intro l
  induction l with
  | nil => intro k; cases k <;> simp [nameGo]
  | cons b t ih =>
    intro k
    cases k with
    | succ k => rw [nameGo]; have := ih k; simp; omega
    | zero =>
      rw [nameGo]
      split
      · simp
      split
      · have h1 := ih (nameCode 2 t).1.length
        have h2 := nameCode_length_le 2 t
        simp only [LR.pre_n, List.length_cons]; omega
      · have h1 := ih 0
        simp only [LR.pre_n, List.length_cons]; omega

theorem strEsc_le (t : Bytes) : (strEsc t).n ≤ t.length := by
  cases t with
  | nil => simp [strEsc]
  | cons c u =>
    have := octGo_le (namedEscape c) u
    rw [strEsc.eq_def]
    simp only
    split
    · simp
    split
    · cases u with
      | nil => simp
      | cons d w => simp only; split <;> simp
    split
    · simp; omega
    · simp

theorem strGo_le : ∀ (l : Bytes) (k o : Nat), (strGo k o l).n ≤ l.length - k := by
  intro l
  induction l with
  | nil => intro k o; cases k <;> simp [strGo]
  | cons b t ih =>
    intro k o
    cases k with
    | succ k => rw [strGo]; have := ih k o; simp; omega
    | zero =>
      have h2 := strEsc_le t
      rw [strGo]
      split
      · split
        · simp only [List.length_cons]; omega
        · have h1 := ih (strEsc t).n o
          simp only [LR.pre_n, List.length_cons]; omega
      split
      · simp
      · have h1 := ih 0 (strOpens o b)
        simp only [LR.pre_n, List.length_cons]; omega

theorem hexGo_le : ∀ (l : Bytes) (c : Bool) (p : Option UInt8), (hexGo c p l).n ≤ l.length := by
  intro l
  induction l with
  | nil => intro c p; cases c <;> simp [hexGo]
  | cons b t ih =>
    intro c p
    cases c
    · rw [hexGo.eq_def]
      simp only
      split
      · have := ih true p; simp only [LR.pre_n, List.length_cons]; omega
      split
      · have := ih false p; simp only [LR.pre_n, List.length_cons]; omega
      split
      · simp
      split
      · have := ih false p; simp only [LR.pre_n, List.length_cons]; omega
      · cases p with
        | none => have := ih false (some b); simp only [LR.pre_n, List.length_cons]; omega
        | some h => have := ih false none; simp only [LR.pre_n, List.length_cons]; omega
    · rw [hexGo]; have := ih (!isEol b) p; simp only [LR.pre_n, List.length_cons]; omega

theorem wholeGo_le : ∀ (l : Bytes) (x : F64), (wholeGo l x).2 ≤ l.length := by
  intro l
  induction l with
  | nil => intro x; simp [wholeGo]
  | cons b t ih =>
    intro x
    rw [wholeGo]
    split
    · have := ih (x.mul10Add (b.toNat - 48)); simp; omega
    split <;> simp

theorem fracGo_le : ∀ (l : Bytes) (x : F64) (i : Nat), (fracGo l x i).2 ≤ l.length := by
  intro l
  induction l with
  | nil => intro x i; simp [fracGo]
  | cons b t ih =>
    intro x i
    rw [fracGo]
    split
    · have := ih (x.addFrac (b.toNat - 48) i) (i + 1); simp; omega
    · simp

theorem numGo_le (b : UInt8) (t : Bytes) : (numGo b t).2 ≤ t.length := by
  simp only [numGo]
  generalize hx : (if isDigit b then F64.mul10Add (.fin 0) (b.toNat - 48) else (F64.fin 0 : F64)) = x
  have hw : (if b == ch%'.' then ((x, true), 0) else wholeGo t x).2 ≤ t.length := by
    split
    · simp
    · exact wholeGo_le t x
  generalize (if b == ch%'.' then ((x, true), 0) else wholeGo t x) = w at *
  split
  · have := fracGo_le (t.drop w.2) w.1.1 1
    simp at this ⊢; omega
  · simp; omega

theorem lNumber_le (l : Bytes) : (lNumber l).2 ≤ l.length := by
  have hs := skipWs_le false l
  simp only [lNumber]
  cases hl : l.drop (skipWs false l) with
  | nil => simp; omega
  | cons b t =>
    have hlen := congrArg List.length hl
    simp only [List.length_drop, List.length_cons] at hlen
    have := numGo_le b t
    simp only
    split <;> simp <;> omega

theorem intGo_le : ∀ (l : Bytes) (v : Int), (intGo l v).2 ≤ l.length := by
  intro l
  induction l with
  | nil => intro v; simp [intGo]
  | cons b t ih =>
    intro v
    rw [intGo]
    split
    · have := ih (wrap64 (v * 10 + (b.toNat - 48 : Nat))); simp only [List.length_cons]; omega
    · simp

theorem lInt_le {l : Bytes} {v : Int} {n : Nat} (h : lInt l = some (v, n)) : n ≤ l.length := by
  have hs := skipWs_le false l
  rw [lInt] at h
  cases hl : l.drop (skipWs false l) with
  | nil => rw [hl] at h; cases h
  | cons b t =>
    have hlen := congrArg List.length hl
    simp only [List.length_drop, List.length_cons] at hlen
    rw [hl] at h
    simp only at h
    split at h
    · have := intGo_le t (b.toNat - 48 : Nat)
      injection h with h
      injection h with h1 h2
      omega
    · cases h

theorem kwGo_le : ∀ (l : Bytes), (kwGo l).length ≤ l.length := by
  intro l
  induction l with
  | nil => simp [kwGo]
  | cons b t ih => rw [kwGo]; split <;> simp; omega

theorem lKeyword_le (l : Bytes) : (lKeyword l).n ≤ l.length := by
  have hs := skipWs_le false l
  have := kwGo_le (l.drop (skipWs false l))
  simp only [lKeyword]
  rw [List.length_drop] at this
  omega

theorem lNumOrRef_le (l : Bytes) : (lNumOrRef l).n ≤ l.length := by
  have h1 := lNumber_le l
  simp only [lNumOrRef]
  cases hi : lInt (l.drop (lNumber l).2) with
  | none => exact h1
  | some p =>
    obtain ⟨g, m⟩ := p
    have h2 := lInt_le hi
    have h3 := lKeyword_le ((l.drop (lNumber l).2).drop m)
    simp only [List.length_drop] at h2 h3
    simp only
    split
    · exact h1
    · simp only; omega

theorem skipWs_cons {b : UInt8} {t : Bytes} (h1 : isWs b = false) (h2 : b ≠ ch%'%') : skipWs false (b :: t) = 0 := by
  simp [skipWs, h1, h2]

theorem lName_bounds {b : UInt8} {t : Bytes} (h1 : isWs b = false) (h2 : b ≠ ch%'%') :
    1 ≤ (lName (b :: t)).n ∧ (lName (b :: t)).n ≤ t.length + 1 := by
  have := nameGo_le t 0
  simp only [lName, skipWs_cons h1 h2, List.drop_zero]
  split <;> simp; omega

theorem lStr_bounds {b : UInt8} {t : Bytes} (h1 : isWs b = false) (h2 : b ≠ ch%'%') :
    1 ≤ (lStr (b :: t)).n ∧ (lStr (b :: t)).n ≤ t.length + 1 := by
  have := strGo_le t 0 1
  simp only [lStr, skipWs_cons h1 h2, List.drop_zero]
  split <;> simp; omega

theorem lHex_bounds {b : UInt8} {t : Bytes} (h1 : isWs b = false) (h2 : b ≠ ch%'%') :
    1 ≤ (lHex (b :: t)).n ∧ (lHex (b :: t)).n ≤ t.length + 1 := by
  have := hexGo_le t false none
  simp only [lHex, skipWs_cons h1 h2, List.drop_zero]
  split <;> simp; omega

theorem lNumber_pos {b : UInt8} {t : Bytes} (h1 : isWs b = false) (h2 : b ≠ ch%'%')
    (h : (isDigit b || b == ch%'+' || b == ch%'-' || b == ch%'.') = true) : 1 ≤ (lNumber (b :: t)).2 := by
  simp only [lNumber, skipWs_cons h1 h2, List.drop_zero]
  rw [if_pos]
  · simp only; omega
  · simp only [Bool.or_eq_true] at h ⊢
    rcases h with ((h | h) | h) | h <;> simp [h]

theorem lNumOrRef_pos {b : UInt8} {t : Bytes} (h1 : isWs b = false) (h2 : b ≠ ch%'%')
    (h : (isDigit b || b == ch%'+' || b == ch%'-' || b == ch%'.') = true) : 1 ≤ (lNumOrRef (b :: t)).n := by
  have := lNumber_pos (t := t) h1 h2 h
  simp only [lNumOrRef]
  split
  · exact this
  · split
    · exact this
    · simp only; omega

theorem lKeyword_pos {b : UInt8} {t : Bytes} (h1 : isWs b = false) (h2 : b ≠ ch%'%') (h3 : isDelim b = false) :
    1 ≤ (lKeyword (b :: t)).n := by
  simp [lKeyword, skipWs_cons h1 h2, kwGo, h1, h3]

/-- Not a failure to terminate; a panic only when decryption panics; a value satisfies `P`. -/
def Good {α : Type} (dec : Bytes → Res Bytes) (P : LR α → Prop) : Res (LR α) → Prop
  | .ok r => P r
  | .panic w => ∃ b, dec b = .panic w
  | .oof => False

theorem Good.lthen {α β : Type} {dec : Bytes → Res Bytes} {P : LR α → Prop} {Q : LR β → Prop} {l : Bytes}
    {x : Res (LR α)} {g : α → Bytes → Res (LR β)} (hx : Good dec P x)
    (hg : ∀ r, P r → Good dec (fun q => Q ⟨q.val, r.n + q.n, r.errs ++ q.errs⟩) (g r.val (l.drop r.n))) :
    Good dec Q (lthen l x g) := by
  match x, hx with
  | .ok r, hx =>
    have := hg r hx
    simp only [Pdf.lthen, Res.bind_ok]
    generalize g r.val (l.drop r.n) = y at *
    match y, this with
    | .ok q, h => exact h
    | .panic w, h => exact h
  | .panic w, hx => exact hx

theorem Good.lskip {β : Type} {dec : Bytes → Res Bytes} {Q : LR β → Prop} {l : Bytes} {n : Nat}
    {g : Bytes → Res (LR β)} (hg : Good dec (fun q => Q ⟨q.val, n + q.n, q.errs⟩) (g (l.drop n))) :
    Good dec Q (lskip n l g) := by
  rw [Pdf.lskip]
  refine Good.lthen (P := fun r => r = ⟨(), n, []⟩) rfl ?_
  rintro r rfl
  simpa using hg

theorem Good.mono {α : Type} {dec : Bytes → Res Bytes} {P Q : LR α → Prop} {x : Res (LR α)} (h : Good dec P x)
    (hpq : ∀ r, P r → Q r) : Good dec Q x := by
  match x, h with
  | .ok r, h => exact hpq r h
  | .panic w, h => exact h

theorem Good.lDec {dec : Bytes → Res Bytes} (hdec : ∀ b, dec b ≠ .oof) (r : LR Bytes) {Q : LR (Obj × RErr) → Prop}
    (h : ∀ d, Q ⟨(.str d, .nil), r.n, r.errs⟩) : Good dec Q (lDec dec r) := by
  rw [Pdf.lDec]
  cases hd : dec r.val with
  | ok d => exact h d
  | panic w => exact ⟨_, hd⟩
  | oof => exact absurd hd (hdec _)

theorem notDelim {b : UInt8} (h1 : ¬ (b == ch%'/') = true) (h2 : ¬ (b == ch%'[') = true) (h3 : ¬ (b == ch%']') = true)
    (h4 : ¬ (b == ch%'(') = true) (h5 : ¬ (b == ch%')') = true) (h6 : ¬ (b == ch%'<') = true)
    (h7 : ¬ (b == ch%'>') = true) (h8 : b ≠ ch%'%') : isDelim b = false := by
  simp at h1 h2 h3 h4 h5 h6 h7 h8
  simp [isDelim, delimiters, *]

/-- What reading an object from `l` guarantees. -/
def ObjOk (l : Bytes) (r : LR (Obj × RErr)) : Prop :=
  r.n ≤ l.length ∧ (r.val.2 = .readError → r.n = l.length ∧ r.val.1 = Obj.null ∧ r.errs = []) ∧
    (r.val.2 ≠ .readError → 0 < r.n)

theorem lObj_good {dec : Bytes → Res Bytes} (hdec : ∀ b, dec b ≠ .oof) : ∀ f,
    (∀ l, 2 * l.length + 1 ≤ f → Good dec (ObjOk l) (lObj dec f l)) ∧
    (∀ l acc, 2 * l.length + 2 ≤ f → Good dec (fun r => r.n ≤ l.length) (lArr dec f l acc)) ∧
    (∀ l d, 2 * l.length + 2 ≤ f → Good dec (fun r => r.n ≤ l.length) (lDict dec f l d)) := by
  intro f
  induction f with
  | zero => refine ⟨?_, ?_, ?_⟩ <;> intros <;> omega
  | succ f ih =>
    obtain ⟨ihO, ihA, ihD⟩ := ih
    refine ⟨?_, ?_, ?_⟩
    · intro l hf
      rw [lObj]
      refine Good.lskip ?_
      have hs := skipWs_le false l
      have hnw := skipWs_drop false l
      have hlen : (l.drop (skipWs false l)).length = l.length - skipWs false l := by simp
      generalize skipWs false l = k at *
      generalize l.drop k = t at *
      cases t with
      | nil =>
        simp only [List.length_nil] at hlen
        exact ⟨by simp; omega, fun _ => ⟨by simp; omega, rfl, rfl⟩, fun h => absurd rfl h⟩
      | cons b u =>
        obtain ⟨w1, w2⟩ := hnw b u rfl
        simp only [List.length_cons] at hlen
        simp only
        split
        · have := lName_bounds (t := u) w1 w2
          exact ⟨by simp only; omega, by simp, by simp; omega⟩
        split
        · refine Good.lskip ?_
          refine Good.lthen (ihA _ [] (by simp; omega)) ?_
          intro r hr
          simp at hr
          exact ⟨by simp; omega, by simp, by simp; omega⟩
        split
        · exact ⟨by simp; omega, by simp, by simp⟩
        split
        · have := lStr_bounds (t := u) w1 w2
          exact Good.lDec hdec _ fun d => ⟨by simp only; omega, by simp, by simp; omega⟩
        split
        · exact ⟨by simp; omega, by simp, by simp⟩
        split
        · next h =>
          have h2 : 1 ≤ u.length := by
            cases u with
            | nil => simp at h
            | cons _ _ => simp
          refine Good.lskip ?_
          refine Good.lthen (ihD _ [] (by simp; omega)) ?_
          intro r hr
          simp at hr
          exact ⟨by simp; omega, by simp, by simp; omega⟩
        split
        · next h =>
          have h2 : 1 ≤ u.length := by
            cases u with
            | nil => simp at h
            | cons _ _ => simp
          exact ⟨by simp; omega, by simp, by simp⟩
        split
        · have := lHex_bounds (t := u) w1 w2
          exact Good.lDec hdec _ fun d => ⟨by simp only; omega, by simp, by simp; omega⟩
        split
        · exact ⟨by simp; omega, by simp, by simp⟩
        split
        · next h =>
          have h2 := lNumOrRef_pos (t := u) w1 w2 h
          have h3 := lNumOrRef_le (b :: u)
          simp only [List.length_cons] at h3
          exact ⟨by simp only; omega, by simp, by simp; omega⟩
        · have h3 := lKeyword_le (b :: u)
          simp only [List.length_cons] at h3
          have h2 := lKeyword_pos (t := u) w1 w2 (notDelim ‹_› ‹_› ‹_› ‹_› ‹_› ‹_› ‹_› w2)
          exact ⟨by simp only; omega, by simp, by simp; omega⟩
    · intro l acc hf
      rw [lArr]
      refine Good.lthen (ihO l (by omega)) ?_
      rintro r ⟨h1, h2, h3⟩
      split
      · exact h1
      split
      · exact h1
      · next hne _ =>
        have := h3 hne
        refine (ihA _ _ (by simp; omega)).mono ?_
        intro q hq
        simp at hq ⊢; omega
    · intro l d hf
      rw [lDict]
      refine Good.lthen (ihO l (by omega)) ?_
      rintro r ⟨h1, h2, h3⟩
      split
      · exact h1
      split
      · exact h1
      · next hne _ =>
        have hpos := h3 hne
        have hother : Good dec (fun q => r.n + q.n ≤ l.length)
            (lthen (l.drop r.n) (lret () [.invalidDictionaryKeyType]) fun _ t => lDict dec f t d) := by
          refine Good.lthen (P := fun q => q.n = 0) rfl ?_
          intro q hq
          rw [hq]
          refine (ihD _ _ (by simp; omega)).mono ?_
          intro q hq
          simp at hq ⊢; omega
        cases hv : r.val.1 with
        | name key =>
          refine Good.lthen (ihO _ (by simp; omega)) ?_
          rintro q ⟨g1, g2, g3⟩
          simp only [List.length_drop] at g1
          split
          · show r.n + (q.n + 0) ≤ _
            omega
          · refine (ihD _ _ (by simp; omega)).mono ?_
            intro q hq
            simp at hq ⊢; omega
        | _ => exact hother

/-! ### Fuel independence -/

/-- `x` is `y` unless it ran out of fuel. -/
def Le {α : Type} (x y : Res α) : Prop := x ≠ .oof → y = x

theorem Le.refl {α : Type} (x : Res α) : Le x x := fun _ => rfl

theorem Le.lthen {α β : Type} {l : Bytes} {x x' : Res (LR α)} {g g' : α → Bytes → Res (LR β)} (h : Le x x')
    (hg : ∀ a t, Le (g a t) (g' a t)) : Le (lthen l x g) (lthen l x' g') := by
  intro hne
  cases x with
  | ok r =>
    rw [h (by simp)]
    simp only [Pdf.lthen, Res.bind_ok] at hne ⊢
    rw [hg r.val (l.drop r.n) (by intro h; rw [h] at hne; exact hne rfl)]
  | panic w => rw [h (by simp)]; rfl
  | oof => exact absurd rfl hne

theorem Le.lskip {β : Type} {l : Bytes} {n : Nat} {g g' : Bytes → Res (LR β)}
    (hg : ∀ t, Le (g t) (g' t)) : Le (lskip n l g) (lskip n l g') :=
  Le.lthen (Le.refl _) fun _ t => hg t

theorem Le.ite {α : Type} {c : Prop} [Decidable c] {x x' y y' : Res α} (h1 : Le x x') (h2 : Le y y') :
    Le (if c then x else y) (if c then x' else y') := by
  split
  · exact h1
  · exact h2

theorem lObj_mono (dec : Bytes → Res Bytes) : ∀ f,
    (∀ l, Le (lObj dec f l) (lObj dec (f + 1) l)) ∧
    (∀ l acc, Le (lArr dec f l acc) (lArr dec (f + 1) l acc)) ∧
    (∀ l d, Le (lDict dec f l d) (lDict dec (f + 1) l d)) := by
  intro f
  induction f with
  | zero => refine ⟨?_, ?_, ?_⟩ <;> intros <;> intro h <;> exact absurd (by simp [lObj, lArr, lDict]) h
  | succ f ih =>
    obtain ⟨ihO, ihA, ihD⟩ := ih
    refine ⟨?_, ?_, ?_⟩
    · intro l
      rw [lObj, lObj]
      refine Le.lskip fun t => ?_
      split
      · exact Le.refl _
      · refine Le.ite (Le.refl _) <| Le.ite (Le.lskip fun t => Le.lthen (ihA t []) fun _ _ => Le.refl _) <|
          Le.ite (Le.refl _) <| Le.ite (Le.refl _) <| Le.ite (Le.refl _) <|
          Le.ite (Le.lskip fun t => Le.lthen (ihD t []) fun _ _ => Le.refl _) (Le.refl _)
    · intro l acc
      rw [lArr, lArr]
      refine Le.lthen (ihO l) fun e t => ?_
      split
      · exact Le.refl _
      split
      · exact Le.refl _
      · exact ihA _ _
    · intro l d
      rw [lDict, lDict]
      refine Le.lthen (ihO l) fun e t => ?_
      split
      · exact Le.refl _
      split
      · exact Le.refl _
      · split
        · refine Le.lthen (ihO t) fun v u => ?_
          split
          · exact Le.refl _
          · exact ihD _ _
        · exact Le.lthen (Le.refl _) fun _ t => ihD _ _

theorem lObj_fuel (dec : Bytes → Res Bytes) {f g : Nat} (h : f ≤ g) {l : Bytes} (hf : lObj dec f l ≠ .oof) :
    lObj dec g l = lObj dec f l := by
  induction h with
  | refl => rfl
  | step _ ih => rw [(lObj_mono dec _).1 l (by rw [ih]; exact hf), ih]

theorem lArr_fuel (dec : Bytes → Res Bytes) {f g : Nat} (h : f ≤ g) {l : Bytes} {acc : List Obj} (hf : lArr dec f l acc ≠ .oof) :
    lArr dec g l acc = lArr dec f l acc := by
  induction h with
  | refl => rfl
  | step _ ih => rw [(lObj_mono dec _).2.1 l acc (by rw [ih]; exact hf), ih]

theorem lDict_fuel (dec : Bytes → Res Bytes) {f g : Nat} (h : f ≤ g) {l : Bytes} {d : Dict} (hf : lDict dec f l d ≠ .oof) :
    lDict dec g l d = lDict dec f l d := by
  induction h with
  | refl => rfl
  | step _ ih => rw [(lObj_mono dec _).2.2 l d (by rw [ih]; exact hf), ih]

end Pdf
