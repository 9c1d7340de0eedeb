import Verif.Lemmas.Grammar
/-!
Further facts about `lObj`: number tokens, white space in front of tokens, endings.
-/

namespace Pdf
open Spec

/-! ### Number tokens -/

theorem wholeGo_len (ds : List Nat) (hd : ∀ d ∈ ds, d < 10) (r : Bytes) (hr : NoDigit r) (hp : ∀ u, r ≠ 46 :: u) : ∀ x : F64,
    (wholeGo (ds.map decDigit ++ r) x).1.2 = false ∧ (wholeGo (ds.map decDigit ++ r) x).2 = ds.length := by
  induction ds with
  | nil =>
    intro x
    cases r with
    | nil => exact ⟨rfl, rfl⟩
    | cons b t =>
      have h1 := hr b t rfl
      rw [← isDigit_iff] at h1
      have h2 : b ≠ 46 := by rintro rfl; exact hp t rfl
      simp [wholeGo, h1, h2]
  | cons d ds ih =>
    intro x
    obtain ⟨f1, f2, -⟩ := decDigit_facts (hd d (by simp))
    simp only [List.map_cons, List.cons_append, wholeGo, f1, if_true]
    have := ih (fun y hy => hd y (by simp [hy])) (x.mul10Add ((decDigit d).toNat - 48))
    simp [this.1, this.2]

theorem wholeGo_len_point (ds : List Nat) (hd : ∀ d ∈ ds, d < 10) (r : Bytes) : ∀ x : F64,
    (wholeGo (ds.map decDigit ++ 46 :: r) x).1.2 = true ∧ (wholeGo (ds.map decDigit ++ 46 :: r) x).2 = ds.length + 1 := by
  induction ds with
  | nil => intro x; simp [wholeGo, isDigit]
  | cons d ds ih =>
    intro x
    obtain ⟨f1, f2, -⟩ := decDigit_facts (hd d (by simp))
    simp only [List.map_cons, List.cons_append, wholeGo, f1, if_true]
    have := ih (fun y hy => hd y (by simp [hy])) (x.mul10Add ((decDigit d).toNat - 48))
    simp [this.1, this.2]

theorem fracGo_len (fs : List Nat) (hd : ∀ d ∈ fs, d < 10) (r : Bytes) (hr : NoDigit r) : ∀ (x : F64) (i : Nat),
    (fracGo (fs.map decDigit ++ r) x i).2 = fs.length := by
  induction fs with
  | nil =>
    intro x i
    cases r with
    | nil => rfl
    | cons b t =>
      have h1 := hr b t rfl
      rw [← isDigit_iff] at h1
      simp [fracGo, h1]
  | cons d ds ih =>
    intro x i
    obtain ⟨f1, f2, -⟩ := decDigit_facts (hd d (by simp))
    simp only [List.map_cons, List.cons_append, fracGo, f1, if_true]
    simp [ih (fun y hy => hd y (by simp [hy]))]

theorem numGo_len_int {b : UInt8} {ds : List Nat} (hb : b ≠ 46) (hd : ∀ d ∈ ds, d < 10) {r : Bytes} (hr : NoDigit r) (hp : ∀ u, r ≠ 46 :: u) :
    (numGo b (ds.map decDigit ++ r)).2 = ds.length := by
  simp only [numGo]
  have hb' : (b == ch%'.') = false := by simpa using hb
  simp only [hb', Bool.false_eq_true, if_false]
  generalize (if isDigit b = true then _ else _ : F64) = x
  obtain ⟨h1, h2⟩ := wholeGo_len ds hd r hr hp x
  simp [h1, h2]

theorem numGo_len_real {b : UInt8} {ds fs : List Nat} (hb : b ≠ 46) (hd : ∀ d ∈ ds, d < 10) (hf : ∀ d ∈ fs, d < 10) {r : Bytes} (hr : NoDigit r) :
    (numGo b (ds.map decDigit ++ 46 :: (fs.map decDigit ++ r))).2 = ds.length + 1 + fs.length := by
  simp only [numGo]
  have hb' : (b == ch%'.') = false := by simpa using hb
  simp only [hb', Bool.false_eq_true, if_false]
  generalize (if isDigit b = true then _ else _ : F64) = x
  obtain ⟨h1, h2⟩ := wholeGo_len_point ds hd (fs.map decDigit ++ r) x
  have hdr : List.drop (ds.length + 1) (ds.map decDigit ++ 46 :: (fs.map decDigit ++ r)) = fs.map decDigit ++ r := by
    rw [List.drop_append]; simp
  simp only [h1, h2, if_true, hdr, fracGo_len fs hf r hr]

theorem numGo_len_dot {fs : List Nat} (hf : ∀ d ∈ fs, d < 10) {r : Bytes} (hr : NoDigit r) :
    (numGo 46 (fs.map decDigit ++ r)).2 = fs.length := by
  simp [numGo, fracGo_len fs hf r hr]

/-- A number token starts with a digit, sign or point; `numGo` takes exactly the rest of it. -/
theorem numToken_numGo {t r : Bytes} (h : NumToken t r) : ∃ b u, t = b :: u ∧
    (isDigit b || b == ch%'+' || b == ch%'-' || b == ch%'.') = true ∧ (numGo b (u ++ r)).2 = u.length := by
  cases h with
  | @int neg sg r ds hs hd hne hr hp =>
    cases hs with
    | none =>
      cases ds with
      | nil => exact absurd rfl hne
      | cons d ds =>
        obtain ⟨f1, -, f2, -⟩ := decDigit_facts (hd d (by simp))
        exact ⟨_, _, rfl, by simp [f1], by rw [numGo_len_int f2 (fun x hx => hd x (by simp [hx])) hr hp]; simp⟩
    | plus => exact ⟨43, ds.map decDigit, rfl, by decide, by rw [numGo_len_int (by decide) hd hr hp]; simp⟩
    | minus => exact ⟨45, ds.map decDigit, rfl, by decide, by rw [numGo_len_int (by decide) hd hr hp]; simp⟩
  | @real neg sg r ds fs hs hd hf hr =>
    have hl : ∀ ds : List Nat, (ds.map decDigit ++ 46 :: fs.map decDigit) ++ r = ds.map decDigit ++ 46 :: (fs.map decDigit ++ r) := by
      intro ds; simp
    cases hs with
    | none =>
      cases ds with
      | nil => exact ⟨46, fs.map decDigit, rfl, by decide, by rw [numGo_len_dot hf hr]; simp⟩
      | cons d ds =>
        obtain ⟨f1, -, f2, -⟩ := decDigit_facts (hd d (by simp))
        refine ⟨decDigit d, ds.map decDigit ++ 46 :: fs.map decDigit, rfl, by simp [f1], ?_⟩
        rw [hl ds, numGo_len_real f2 (fun x hx => hd x (by simp [hx])) hf hr]
        simp; omega
    | plus =>
      refine ⟨43, ds.map decDigit ++ 46 :: fs.map decDigit, rfl, by decide, ?_⟩
      rw [hl, numGo_len_real (by decide) hd hf hr]
      simp; omega
    | minus =>
      refine ⟨45, ds.map decDigit ++ 46 :: fs.map decDigit, rfl, by decide, ?_⟩
      rw [hl, numGo_len_real (by decide) hd hf hr]
      simp; omega

/-- Every text that starts like a number starts with a number token. -/
theorem numToken_total {b : UInt8} {u : Bytes} (h : (isDigit b || b == ch%'+' || b == ch%'-' || b == ch%'.') = true) :
    ∃ t r, b :: u = t ++ r ∧ NumToken t r := by
  have main : ∀ (neg : Bool) (sg l : Bytes), Sign neg sg → (sg = [] → ∃ c v, l = c :: v ∧ (isDigit c = true ∨ c = 46)) →
      ∃ t r, sg ++ l = t ++ r ∧ NumToken t r := by
    intro neg sg l hs hl
    obtain ⟨ds, r, rfl, hd, hr⟩ := takeWhile_digits l
    by_cases hp : ∃ v, r = 46 :: v
    · obtain ⟨v, rfl⟩ := hp
      obtain ⟨fs, r, rfl, hf, hr'⟩ := takeWhile_digits v
      exact ⟨sg ++ (ds.map decDigit ++ 46 :: fs.map decDigit), r, by simp, .real hs hd hf hr'⟩
    · refine ⟨sg ++ ds.map decDigit, r, by simp, .int hs hd ?_ hr (fun v hv => hp ⟨v, hv⟩)⟩
      intro hnil
      obtain ⟨h1, h2⟩ := List.append_eq_nil_iff.1 hnil
      obtain ⟨c, v, hcv, hc⟩ := hl h1
      rw [h2, List.nil_append] at hcv
      rcases hc with hc | hc
      · rw [isDigit_iff] at hc
        exact hr c v hcv hc
      · exact hp ⟨v, by rw [hcv, hc]⟩
  have hb : isDigit b = true ∨ b = 43 ∨ b = 45 ∨ b = 46 := by simpa [or_assoc] using h
  rcases hb with hb | rfl | rfl | rfl
  · obtain ⟨t, r, h1, h2⟩ := main false [] (b :: u) .none (fun _ => ⟨b, u, rfl, .inl hb⟩)
    exact ⟨t, r, h1, h2⟩
  · obtain ⟨t, r, h1, h2⟩ := main false [43] u .plus (fun h => by cases h)
    exact ⟨t, r, h1, h2⟩
  · obtain ⟨t, r, h1, h2⟩ := main true [45] u .minus (fun h => by cases h)
    exact ⟨t, r, h1, h2⟩
  · obtain ⟨t, r, h1, h2⟩ := main false [] (46 :: u) .none (fun _ => ⟨46, u, rfl, .inr rfl⟩)
    exact ⟨t, r, h1, h2⟩

theorem lNumber_token {t r : Bytes} (h : NumToken t r) : (lNumber (t ++ r)).2 = t.length := by
  obtain ⟨b, u, rfl, hb, hn⟩ := numToken_numGo h
  obtain ⟨h1, h2, -⟩ := isDigit_char b hb
  have hb' : (b == ch%'-' || isDigit b || b == ch%'.' || b == ch%'+') = true := by
    simp only [Bool.or_eq_true] at hb ⊢
    rcases hb with ((hb | hb) | hb) | hb <;> simp [hb]
  simp only [lNumber, List.cons_append, skipWs_cons h1 h2, List.drop_zero, hb', if_true, hn]
  simp; omega

/-! ### White space in front of tokens -/

theorem lName_blank {w : Bytes} (hw : Blank w) (l : Bytes) : lName (w ++ l) = ⟨(lName l).val, w.length + (lName l).n, (lName l).errs⟩ := by
  rw [lName, drop_blank hw, skipWs_blank hw, lName]
  cases l.drop (skipWs false l) with
  | nil => rfl
  | cons b t => simp only; split <;> simp [LR.pre, Nat.add_assoc]

theorem lStr_blank {w : Bytes} (hw : Blank w) (l : Bytes) : lStr (w ++ l) = ⟨(lStr l).val, w.length + (lStr l).n, (lStr l).errs⟩ := by
  rw [lStr, drop_blank hw, skipWs_blank hw, lStr]
  cases l.drop (skipWs false l) with
  | nil => rfl
  | cons b t => simp only; split <;> simp [LR.pre, Nat.add_assoc]

theorem lHex_blank {w : Bytes} (hw : Blank w) (l : Bytes) : lHex (w ++ l) = ⟨(lHex l).val, w.length + (lHex l).n, (lHex l).errs⟩ := by
  rw [lHex, drop_blank hw, skipWs_blank hw, lHex]
  cases l.drop (skipWs false l) with
  | nil => rfl
  | cons b t => simp only; split <;> simp [LR.pre, Nat.add_assoc]

theorem lKeyword_blank {w : Bytes} (hw : Blank w) (l : Bytes) :
    lKeyword (w ++ l) = ⟨(lKeyword l).val, w.length + (lKeyword l).n, (lKeyword l).errs⟩ := by
  rw [lKeyword, drop_blank hw, skipWs_blank hw, lKeyword]
  simp [Nat.add_assoc]

theorem lNumber_blank {w : Bytes} (hw : Blank w) (l : Bytes) : lNumber (w ++ l) = ((lNumber l).1, w.length + (lNumber l).2) := by
  rw [lNumber, drop_blank hw, skipWs_blank hw, lNumber]
  cases l.drop (skipWs false l) with
  | nil => rfl
  | cons b t => simp only; split <;> simp [Nat.add_assoc]

theorem lInt_blank {w : Bytes} (hw : Blank w) (l : Bytes) : lInt (w ++ l) = (lInt l).map fun p => (p.1, w.length + p.2) := by
  rw [lInt, drop_blank hw, skipWs_blank hw, lInt]
  cases l.drop (skipWs false l) with
  | nil => rfl
  | cons b t => simp only; split <;> simp [Nat.add_assoc]

/-- `ReadArray` on the remaining bytes. -/
def lArray (dec : Bytes → Res Bytes) (f : Nat) (l : Bytes) : Res (LR (List Obj)) :=
  lskip (skipWs false l) l fun t =>
    match t with
    | [] => lret []
    | b :: _ => if b == ch%'[' then lskip 1 t fun u => lArr dec f u [] else .ok ⟨[], 1, []⟩

theorem readArray_spec (file : Bytes) (dec : Bytes → Res Bytes) (s : PS) :
    Rel s (readArray file dec s) (lArray dec (objFuel file) (rest file s)) := by
  have hw := consumeWs_step file s
  have hr := rest_eq (file := file) hw.pos
  rw [readArray, readArrayHead, lArray]
  refine Rel.skip hw ?_
  rw [← hr]
  cases hl : rest file (consumeWs file s) with
  | nil =>
    rw [readByte_nil hl]
    exact ⟨rfl, Step.refl _⟩
  | cons b t =>
    rw [readByte_cons hl]
    simp only
    cases hb : b == ch%'['
    · simp only [Bool.false_eq_true, if_false]
      exact ⟨rfl, Step.adv file _⟩
    · simp only [if_true]
      refine Rel.skip (Step.adv file _) ?_
      have := (readObject_spec file dec (objFuel file)).2.1 (adv file (consumeWs file s)) []
      rw [rest_adv hl] at this
      exact this

theorem lArray_blank {w : Bytes} (hw : Blank w) (dec : Bytes → Res Bytes) (f : Nat) (l : Bytes) :
    lArray dec f (w ++ l) = lskip w.length (w ++ l) fun t => lArray dec f t := by
  obtain ⟨G, hG⟩ : ∃ G, ∀ l, lArray dec f l = lskip (skipWs false l) l G := ⟨_, fun _ => rfl⟩
  simp only [hG]
  rw [lskip, lthen, Res.bind_ok, drop_blank hw, skipWs_blank hw]
  simp only [lskip, lthen, Res.bind_ok, List.drop_left]
  cases G (l.drop (skipWs false l)) <;> simp [Nat.add_assoc]

/-! ### How constructs end -/

theorem lDec_nil {dec : Bytes → Res Bytes} {r : LR Bytes} {q : LR (Obj × RErr)} (h : lDec dec r = .ok q) : q.val.2 = .nil := by
  rw [lDec] at h
  cases hd : dec r.val with
  | ok d => rw [hd] at h; injection h with h; rw [← h]
  | panic w => rw [hd] at h; cases h
  | oof => rw [hd] at h; cases h

theorem lskip_inv {β : Type} {n : Nat} {l : Bytes} {g : Bytes → Res (LR β)} {q : LR β} (h : lskip n l g = .ok q) :
    ∃ p, g (l.drop n) = .ok p ∧ q = ⟨p.val, n + p.n, p.errs⟩ := by
  rw [lskip, lthen, Res.bind_ok] at h
  cases hg : g (l.drop n) with
  | ok p => rw [hg] at h; injection h with h; exact ⟨p, rfl, by rw [← h]; simp⟩
  | panic w => rw [hg] at h; cases h
  | oof => rw [hg] at h; cases h

theorem lthen_inv {α β : Type} {l : Bytes} {x : Res (LR α)} {g : α → Bytes → Res (LR β)} {q : LR β} (h : lthen l x g = .ok q) :
    ∃ r p, x = .ok r ∧ g r.val (l.drop r.n) = .ok p ∧ q = ⟨p.val, r.n + p.n, r.errs ++ p.errs⟩ := by
  rw [lthen] at h
  cases x with
  | ok r =>
    rw [Res.bind_ok] at h
    cases hg : g r.val (l.drop r.n) with
    | ok p => rw [hg] at h; injection h with h; exact ⟨r, p, rfl, hg, h.symm⟩
    | panic w => rw [hg] at h; cases h
    | oof => rw [hg] at h; cases h
  | panic w => cases h
  | oof => cases h

/-- What the error values say about the bytes consumed. -/
theorem lObj_ends {dec : Bytes → Res Bytes} {f : Nat} {l : Bytes} {q : LR (Obj × RErr)} (h : lObj dec f l = .ok q) :
    (q.val.2 = .endOfArray → ∃ u v, l = u ++ 93 :: v ∧ q.n = u.length + 1) ∧
    (q.val.2 = .endOfDictionary → ∃ u v, l = u ++ 62 :: 62 :: v ∧ q.n = u.length + 2) ∧
    (q.val.2 = .readError → q.n = l.length ∧ q.errs = []) := by
  cases f with
  | zero => cases h
  | succ f =>
  rw [lObj] at h
  obtain ⟨p, hp, hq⟩ := lskip_inv h
  have hlen := skipWs_le false l
  generalize skipWs false l = k at *
  have hl : l = l.take k ++ l.drop k := (List.take_append_drop k l).symm
  have hk : (l.take k).length = k := by simp; omega
  clear h
  have hnil : ∀ {o : Obj} {n : Nat} {e : List Err}, Res.ok (⟨(o, RErr.nil), n, e⟩ : LR (Obj × RErr)) = .ok p → p.val.2 = .nil := by
    intro o n e h; injection h with h; rw [← h]
  have hdone : p.val.2 = .nil ∨ p.val.2 = .endOfString ∨ p.val.2 = .endOfHexString →
      (q.val.2 = .endOfArray → ∃ u v, l = u ++ 93 :: v ∧ q.n = u.length + 1) ∧
      (q.val.2 = .endOfDictionary → ∃ u v, l = u ++ 62 :: 62 :: v ∧ q.n = u.length + 2) ∧
      (q.val.2 = .readError → q.n = l.length ∧ q.errs = []) := by
    intro h
    rw [hq]
    rcases h with h | h | h <;> simp [h]
  cases hd : l.drop k with
  | nil =>
    rw [hd] at hp
    injection hp with hp
    rw [hq, ← hp]
    refine ⟨by rintro ⟨⟩, by rintro ⟨⟩, fun _ => ⟨?_, rfl⟩⟩
    have : (l.drop k).length = 0 := by rw [hd]; rfl
    simp at this
    simp; omega
  | cons b t =>
    rw [hd] at hp hl
    simp only at hp
    split at hp
    · exact hdone (.inl (hnil hp))
    split at hp
    · obtain ⟨p', h1, h2⟩ := lskip_inv hp
      obtain ⟨r, p'', h3, h4, h5⟩ := lthen_inv h1
      injection h4 with h4
      exact hdone (.inl (by rw [h2, h5, ← h4]))
    split at hp
    · next hb =>
      injection hp with hp
      rw [hq, ← hp]
      refine ⟨fun _ => ⟨l.take k, t, ?_, ?_⟩, by rintro ⟨⟩, by rintro ⟨⟩⟩
      · rw [← eq_of_beq hb]; exact hl
      · simp only; rw [hk]
    split at hp
    · exact hdone (.inl (lDec_nil hp))
    split at hp
    · injection hp with hp
      exact hdone (.inr (.inl (by rw [← hp])))
    split at hp
    · obtain ⟨p', h1, h2⟩ := lskip_inv hp
      obtain ⟨r, p'', h3, h4, h5⟩ := lthen_inv h1
      injection h4 with h4
      exact hdone (.inl (by rw [h2, h5, ← h4]))
    split at hp
    · next hb =>
      injection hp with hp
      rw [hq, ← hp]
      have hbb := eq_of_beq hb
      cases t with
      | nil => cases hbb
      | cons c t =>
        simp only [List.take_succ_cons, List.take_zero, List.cons.injEq, and_true] at hbb
        refine ⟨(by rintro ⟨⟩), fun _ => ⟨l.take k, t, ?_, ?_⟩, by rintro ⟨⟩⟩
        · rw [← hbb.1]; rw [← hbb.1] at hbb; rw [hbb.2] at hl; rw [hbb.1] at hl ⊢; exact hl
        · simp only; rw [hk]
    split at hp
    · exact hdone (.inl (lDec_nil hp))
    split at hp
    · injection hp with hp
      exact hdone (.inr (.inr (by rw [← hp])))
    split at hp
    · exact hdone (.inl (hnil hp))
    · exact hdone (.inl (hnil hp))

/-- Whatever the fuel, a result consumes no more than there is. -/
theorem lObj_ok {dec : Bytes → Res Bytes} (hdec : ∀ b, dec b ≠ .oof) {f : Nat} {l : Bytes} {q : LR (Obj × RErr)} (h : lObj dec f l = .ok q) :
    ObjOk l q := by
  have hg := (lObj_good hdec (max f (2 * l.length + 1))).1 l (Nat.le_max_right _ _)
  rw [lObj_fuel dec (Nat.le_max_left _ _) (by rw [h]; simp), h] at hg
  exact hg

/-- An array ends with `]`, or at the end of the input with a report. -/
theorem lArr_ends {dec : Bytes → Res Bytes} (hdec : ∀ b, dec b ≠ .oof) :
    ∀ (f : Nat) (l : Bytes) (acc : List Obj) (q : LR (List Obj)), lArr dec f l acc = .ok q →
    (∃ u v, l = u ++ 93 :: v ∧ q.n = u.length + 1) ∨ (q.n = l.length ∧ ∃ e, q.errs = e ++ [.unclosedArray]) := by
  intro f
  induction f with
  | zero => intro l acc q h; cases h
  | succ f ih =>
    intro l acc q h
    rw [lArr] at h
    obtain ⟨r, p, h1, h2, h3⟩ := lthen_inv h
    obtain ⟨e1, e2, e3⟩ := lObj_ends h1
    have hle := (lObj_ok hdec h1).1
    split at h2
    · next he =>
      injection h2 with h2
      right
      rw [h3, ← h2]
      exact ⟨by simpa using (e3 he).1, r.errs, rfl⟩
    split at h2
    · next he =>
      injection h2 with h2
      left
      rw [h3, ← h2]
      obtain ⟨u, v, hu, hn⟩ := e1 he
      exact ⟨u, v, hu, hn⟩
    · rcases ih _ _ _ h2 with ⟨u, v, hu, hn⟩ | ⟨hn, e, he⟩
      · left
        refine ⟨l.take r.n ++ u, v, ?_, ?_⟩
        · rw [List.append_assoc, ← hu, List.take_append_drop]
        · rw [h3]
          simp only [List.length_append]
          rw [hn, List.length_take]; omega
      · right
        rw [h3]
        exact ⟨by simp [hn]; omega, r.errs ++ e, by simp [he]⟩

/-- A dictionary ends with `>>`, or at the end of the input with a report. -/
theorem lDict_ends {dec : Bytes → Res Bytes} (hdec : ∀ b, dec b ≠ .oof) :
    ∀ (f : Nat) (l : Bytes) (d : Dict) (q : LR Dict), lDict dec f l d = .ok q →
    (∃ u v, l = u ++ 62 :: 62 :: v ∧ q.n = u.length + 2) ∨
      (q.n = l.length ∧ ∃ e x, q.errs = e ++ [x] ∧ (x = .unclosedDictionary ∨ x = .missingDictionaryValue)) := by
  intro f
  induction f with
  | zero => intro l acc q h; cases h
  | succ f ih =>
    intro l d q h
    rw [lDict] at h
    obtain ⟨r, p, h1, h2, h3⟩ := lthen_inv h
    obtain ⟨e1, e2, e3⟩ := lObj_ends h1
    have hle := (lObj_ok hdec h1).1
    have later : ((∃ u v, l.drop r.n = u ++ 62 :: 62 :: v ∧ p.n = u.length + 2) ∨
        (p.n = (l.drop r.n).length ∧ ∃ e x, p.errs = e ++ [x] ∧ (x = .unclosedDictionary ∨ x = .missingDictionaryValue))) →
        (∃ u v, l = u ++ 62 :: 62 :: v ∧ q.n = u.length + 2) ∨
          (q.n = l.length ∧ ∃ e x, q.errs = e ++ [x] ∧ (x = .unclosedDictionary ∨ x = .missingDictionaryValue)) := by
      rintro (⟨u, v, hu, hn⟩ | ⟨hn, e, x, he, hx⟩)
      · left
        refine ⟨l.take r.n ++ u, v, ?_, ?_⟩
        · rw [List.append_assoc, ← hu, List.take_append_drop]
        · rw [h3]
          simp only [List.length_append]
          rw [hn, List.length_take]; omega
      · right
        rw [h3]
        exact ⟨by simp [hn]; omega, r.errs ++ e, x, by simp [he], hx⟩
    split at h2
    · next he =>
      injection h2 with h2
      right
      rw [h3, ← h2]
      exact ⟨by simpa using (e3 he).1, r.errs, _, rfl, .inl rfl⟩
    split at h2
    · next he =>
      injection h2 with h2
      left
      rw [h3, ← h2]
      obtain ⟨u, v, hu, hn⟩ := e2 he
      exact ⟨u, v, hu, hn⟩
    · have hother : lthen (l.drop r.n) (lret () [.invalidDictionaryKeyType]) (fun _ t => lDict dec f t d) = .ok p →
          (∃ u v, l = u ++ 62 :: 62 :: v ∧ q.n = u.length + 2) ∨
          (q.n = l.length ∧ ∃ e x, q.errs = e ++ [x] ∧ (x = .unclosedDictionary ∨ x = .missingDictionaryValue)) := by
        intro h2
        obtain ⟨r', p', g1, g2, g3⟩ := lthen_inv h2
        injection g1 with g1
        rw [← g1] at g2 g3
        apply later
        rcases ih _ _ _ g2 with ⟨u, v, hu, hn⟩ | ⟨hn, e, x, he, hx⟩
        · exact .inl ⟨u, v, by simpa using hu, by rw [g3]; simp [hn]⟩
        · exact .inr ⟨by rw [g3]; simpa using hn, .invalidDictionaryKeyType :: e, x, by rw [g3]; simp [he], hx⟩
      cases hv : r.val.1 with
      | name key =>
        rw [hv] at h2
        simp only at h2
        obtain ⟨r', p', g1, g2, g3⟩ := lthen_inv h2
        obtain ⟨e1', e2', e3'⟩ := lObj_ends g1
        have hle' := (lObj_ok hdec g1).1
        split at g2
        · next hc =>
          injection g2 with g2
          apply later
          rcases hc with hc | hc
          · exact .inr ⟨by rw [g3, ← g2]; simpa using (e3' hc).1, r'.errs, _, by rw [g3, ← g2], .inr rfl⟩
          · obtain ⟨u, v, hu, hn⟩ := e2' hc
            exact .inl ⟨u, v, hu, by rw [g3, ← g2]; simpa using hn⟩
        · apply later
          rcases ih _ _ _ g2 with ⟨u, v, hu, hn⟩ | ⟨hn, e, x, he, hx⟩
          · left
            refine ⟨(l.drop r.n).take r'.n ++ u, v, ?_, ?_⟩
            · rw [List.append_assoc, ← hu, List.take_append_drop]
            · rw [g3]
              simp only [List.length_append]
              rw [hn, List.length_take]; omega
          · right
            rw [g3]
            refine ⟨?_, r'.errs ++ e, x, by simp [he], hx⟩
            rw [List.length_drop] at hn
            simp only
            omega
      | _ => rw [hv] at h2; exact hother h2

/-- A literal string ends with `)`, or at the end of the input with a report. -/
theorem strGo_ends : ∀ (l : Bytes) (k o : Nat), k ≤ l.length → 1 ≤ o →
    (∃ u v, l = u ++ 41 :: v ∧ (strGo k o l).n + k = u.length + 1) ∨
      ((strGo k o l).n + k = l.length ∧ ∃ e x, (strGo k o l).errs = e ++ [x] ∧ (x = .unclosedString ∨ x = .unclosedStringEscape)) := by
  intro l
  induction l with
  | nil =>
    intro k o hk ho
    obtain rfl : k = 0 := by simpa using hk
    right
    exact ⟨rfl, [], .unclosedString, rfl, .inl rfl⟩
  | cons b t ih =>
    intro k o hk ho
    cases k with
    | succ k =>
      rw [strGo]
      rcases ih k o (by simpa using hk) ho with ⟨u, v, hu, hn⟩ | ⟨hn, h⟩
      · exact .inl ⟨b :: u, v, by rw [hu]; rfl, by simp; omega⟩
      · exact .inr ⟨by simp; omega, h⟩
    | zero =>
      rw [strGo]
      split
      · split
        · next h1 h2 =>
          right
          cases t with
          | nil => exact ⟨rfl, [], .unclosedStringEscape, rfl, .inr rfl⟩
          | cons c u =>
            rw [strEsc.eq_def] at h2 ⊢
            simp only at h2 ⊢
            split at h2
            · cases h2
            split at h2
            · next c1 c2 =>
              rw [if_neg c1, if_pos c2]
              cases u with
              | nil => exact ⟨rfl, [], .unclosedStringEscape, rfl, .inr rfl⟩
              | cons d w => simp only at h2; split at h2 <;> cases h2
            split at h2 <;> cases h2
        · have hle := strEsc_le t
          rcases ih (strEsc t).n o hle ho with ⟨u, v, hu, hn⟩ | ⟨hn, e, x, he, hx⟩
          · exact .inl ⟨b :: u, v, by rw [hu]; rfl, by simp; omega⟩
          · exact .inr ⟨by simp; omega, (strEsc t).errs ++ e, x, by simp [he], hx⟩
      split
      · next h1 h2 =>
        left
        have hb : b = 41 := by
          rw [strOpens] at h2
          split at h2
          · omega
          split at h2
          · next h => exact eq_of_beq h
          · omega
        exact ⟨[], t, by rw [hb]; rfl, by simp⟩
      · rcases ih 0 (strOpens o b) (by omega) (by omega) with ⟨u, v, hu, hn⟩ | ⟨hn, e, x, he, hx⟩
        · exact .inl ⟨b :: u, v, by rw [hu]; rfl, by simp; omega⟩
        · exact .inr ⟨by simp; omega, e, x, by simp [he], hx⟩

end Pdf
