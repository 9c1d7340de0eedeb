import Verif.Lemmas.CursorTok
import Verif.Model.Parser
/-!
Refinement of `readObject` (and its array and dictionary loops) to functions on the remaining bytes:
what is read depends on those bytes only, not on the state of the buffer.
-/

namespace Pdf

/-- Run `g` on what `x` left. -/
def lthen {α β : Type} (l : Bytes) (x : Res (LR α)) (g : α → Bytes → Res (LR β)) : Res (LR β) :=
  x >>= fun r => g r.val (l.drop r.n) >>= fun q => .ok ⟨q.val, r.n + q.n, r.errs ++ q.errs⟩

/-- Skip `n` bytes. -/
def lskip {β : Type} (n : Nat) (l : Bytes) (g : Bytes → Res (LR β)) : Res (LR β) :=
  lthen l (.ok ⟨(), n, []⟩) fun _ t => g t

/-- A result that consumes nothing. -/
def lret {α : Type} (a : α) (es : List Err := []) : Res (LR α) := .ok ⟨a, 0, es⟩

/-- A read from the file refines a function on the remaining bytes. -/
def Rel {α : Type} (s : PS) : Res (α × PS) → Res (LR α) → Prop
  | .ok (a, s'), .ok r => a = r.val ∧ Step s s' r.n r.errs
  | .panic w, .panic w' => w = w'
  | .oof, .oof => True
  | _, _ => False

theorem Rel.ok {α : Type} {s s' : PS} {a : α} {n : Nat} {es : List Err} (h : Step s s' n es) :
    Rel s (.ok (a, s')) (.ok ⟨a, n, es⟩) := ⟨rfl, h⟩

theorem Rel.bind {α β : Type} {s : PS} {l : Bytes} {x : Res (α × PS)} {y : Res (LR α)}
    {f : α × PS → Res (β × PS)} {g : α → Bytes → Res (LR β)} (h : Rel s x y)
    (hfg : ∀ a s' n es, Step s s' n es → Rel s' (f (a, s')) (g a (l.drop n))) :
    Rel s (x >>= f) (lthen l y g) := by
  match x, y, h with
  | .ok (a, s'), .ok r, ⟨h1, h2⟩ =>
    subst h1
    have := hfg r.val s' r.n r.errs h2
    simp only [lthen, Res.bind_ok]
    generalize hq : g r.val (l.drop r.n) = q at *
    generalize hp : f (r.val, s') = p at *
    match p, q, this with
    | .ok (b, s''), .ok q, ⟨h3, h4⟩ => exact ⟨h3, h2.trans h4⟩
    | .panic w, .panic w', h3 => exact h3
    | .oof, .oof, _ => trivial
  | .panic w, .panic w', h => exact h
  | .oof, .oof, _ => trivial

theorem Rel.skip {β : Type} {s s' : PS} {l : Bytes} {n : Nat} {x : Res (β × PS)} {g : Bytes → Res (LR β)}
    (h : Step s s' n []) (hx : Rel s' x (g (l.drop n))) : Rel s x (lskip n l g) := by
  simp only [lskip, lthen, Res.bind_ok]
  generalize g (l.drop n) = q at *
  match x, q, hx with
  | .ok (b, s''), .ok q, ⟨h3, h4⟩ => exact ⟨h3, h.trans h4⟩
  | .panic w, .panic w', h3 => exact h3
  | .oof, .oof, _ => trivial

/-- A number or a reference. -/
def lNumOrRef (l : Bytes) : LR Obj :=
  let x := lNumber l
  match lInt (l.drop x.2) with
  | none => ⟨.num x.1, x.2, []⟩
  | some (g, m) =>
    let kw := lKeyword ((l.drop x.2).drop m)
    if kw.val ≠ b!"R" then ⟨.num x.1, x.2, []⟩ else ⟨.ref x.1.toInt g, x.2 + m + kw.n, []⟩

/-- A string after decryption. -/
def lDec (dec : Bytes → Res Bytes) (r : LR Bytes) : Res (LR (Obj × RErr)) :=
  dec r.val >>= fun d => .ok ⟨(.str d, .nil), r.n, r.errs⟩

mutual

/-- `ReadObject` on the remaining bytes. -/
def lObj (dec : Bytes → Res Bytes) : Nat → Bytes → Res (LR (Obj × RErr))
  | 0, _ => .oof
  | f + 1, l => lskip (skipWs false l) l fun t =>
    match t with
    | [] => lret (Obj.null, .readError)
    | b0 :: _ =>
      if b0 == ch%'/' then .ok ⟨(.name (lName t).val, .nil), (lName t).n, (lName t).errs⟩
      else if b0 == ch%'[' then lskip 1 t fun u => lthen u (lArr dec f u []) fun a _ => lret (.arr a, .nil)
      else if b0 == ch%']' then .ok ⟨(Obj.null, .endOfArray), 1, []⟩
      else if b0 == ch%'(' then lDec dec (lStr t)
      else if b0 == ch%')' then .ok ⟨(Obj.null, .endOfString), 1, []⟩
      else if t.take 2 == b!"<<" then lskip 2 t fun u => lthen u (lDict dec f u []) fun d _ => lret (.dict d, .nil)
      else if t.take 2 == b!">>" then .ok ⟨(Obj.null, .endOfDictionary), 2, []⟩
      else if b0 == ch%'<' then lDec dec (lHex t)
      else if b0 == ch%'>' then .ok ⟨(Obj.null, .endOfHexString), 1, []⟩
      else if isDigit b0 || b0 == ch%'+' || b0 == ch%'-' || b0 == ch%'.' then
        .ok ⟨((lNumOrRef t).val, .nil), (lNumOrRef t).n, (lNumOrRef t).errs⟩
      else .ok ⟨(.kw (lKeyword t).val, .nil), (lKeyword t).n, (lKeyword t).errs⟩

/-- Elements of an array. -/
def lArr (dec : Bytes → Res Bytes) : Nat → Bytes → List Obj → Res (LR (List Obj))
  | 0, _, _ => .oof
  | f + 1, l, acc => lthen l (lObj dec f l) fun e t =>
    if e.2 = .readError then lret acc [.unclosedArray]
    else if e.2 = .endOfArray then lret acc
    else lArr dec f t (acc ++ [e.1])

/-- Entries of a dictionary. -/
def lDict (dec : Bytes → Res Bytes) : Nat → Bytes → Dict → Res (LR Dict)
  | 0, _, _ => .oof
  | f + 1, l, d => lthen l (lObj dec f l) fun e t =>
    if e.2 = .readError then lret d [.unclosedDictionary]
    else if e.2 = .endOfDictionary then lret d
    else match e.1 with
      | .name key => lthen t (lObj dec f t) fun v u =>
        if v.2 = .readError ∨ v.2 = .endOfDictionary then lret d [.missingDictionaryValue]
        else lDict dec f u (d.set key v.1)
      | _ => lthen t (lret () [.invalidDictionaryKeyType]) fun _ t => lDict dec f t d

end

theorem seek_current (s s0 : PS) : (seek s (currentOffset s0)).pos = s0.pos ∧ (seek s (currentOffset s0)).log = s.log := by
  have h : currentOffset s0 = (s0.pos : Int) := by simp only [currentOffset]; omega
  rw [h]
  simp only [seek]
  rw [if_neg (by omega)]
  simp

theorem readNumOrRef_spec (file s) : (readNumOrRef file s).1 = (lNumOrRef (rest file s)).val ∧
    Step s (readNumOrRef file s).2 (lNumOrRef (rest file s)).n (lNumOrRef (rest file s)).errs := by
  obtain ⟨h1, h2⟩ := readNumber_spec file s
  rw [readNumOrRef]
  simp only [lNumOrRef]
  generalize hx : readNumber file s = X at *
  obtain ⟨x, s1⟩ := X
  simp only at h1 h2 ⊢
  have hr := rest_eq (file := file) h2.pos
  rw [← hr]
  cases hi : lInt (rest file s1) with
  | none =>
    obtain ⟨s2, e1, e2, -⟩ := readInt_none hi
    rw [e1]
    simp only
    obtain ⟨k1, k2⟩ := seek_current s2 s1
    exact ⟨by rw [h1], ⟨by rw [k1, h2.pos], by rw [k2, e2, h2.log]⟩⟩
  | some p =>
    obtain ⟨g, m⟩ := p
    obtain ⟨s2, e1, e2⟩ := readInt_some hi
    rw [e1]
    simp only
    have hr2 := rest_eq (file := file) e2.pos
    obtain ⟨k1, k2⟩ := readKeyword_spec file s2
    generalize hk : readKeyword file s2 = K at *
    obtain ⟨kw, s3⟩ := K
    simp only at k1 k2 ⊢
    rw [← hr2, k1]
    by_cases hkw : (lKeyword (rest file s2)).val = b!"R"
    · rw [if_neg (by simp [hkw]), if_neg (by simp [hkw])]
      exact ⟨by rw [h1], ((h2.trans e2).trans k2).cast rfl (by simp [lKeyword])⟩
    · rw [if_pos (by simp [hkw]), if_pos (by simp [hkw])]
      obtain ⟨j1, j2⟩ := seek_current s3 s1
      have : (lKeyword (rest file s2)).errs = [] := rfl
      exact ⟨by rw [h1], ⟨by rw [j1, h2.pos], by rw [j2, k2.log, e2.log, h2.log, this]; simp⟩⟩

/-- When the next byte is not white space, skipping only buffers it. -/
theorem consumeWs_none {file s b t} (hl : rest file s = b :: t) (h1 : isWs b = false) (h2 : b ≠ ch%'%') :
    consumeWs file s = unreadByte (adv file s) := by
  rw [consumeWs, consumeWsLoop, readByte_cons hl]
  simp only [h1, beq_eq_false_iff_ne.2 h2, Bool.false_eq_true, if_false]

theorem readArrayHead_spec {file s t} (hl : rest file s = ch%'[' :: t) :
    ∃ s', readArrayHead file s = (true, s') ∧ Step s s' 1 [] := by
  have hw := consumeWs_step file s
  rw [hl] at hw
  have hw : Step s (consumeWs file s) 0 [] := hw
  have hr := rest_eq (file := file) hw.pos
  rw [hl] at hr
  rw [readArrayHead, readByte_cons hr]
  exact ⟨_, rfl, (hw.trans (Step.adv file _)).cast rfl rfl⟩

/-- With two buffered bytes `<<`, `ReadDictionary` sees them. -/
theorem readDictHead_spec {file s t} (hl : rest file s = ch%'<' :: ch%'<' :: t) (hb : s.pos + 2 ≤ s.lim) :
    ∃ s', readDictHead file s = (true, s') ∧ Step s s' 2 [] := by
  rw [readDictHead, consumeWs_none hl (by decide) (by decide)]
  have hp : (unreadByte (adv file s)).pos = s.pos := by simp
  have hlim : (unreadByte (adv file s)).lim = s.lim := by
    simp [unreadByte, adv]; omega
  have hlog : (unreadByte (adv file s)).log = s.log := by simp
  generalize unreadByte (adv file s) = s1 at *
  simp only [readN]
  rw [if_pos (by omega), show min 2 (s1.lim - s1.pos) = 2 by omega, hp]
  refine ⟨{ pos := s.pos + 2, lim := s1.lim, last := true, log := s1.log }, ?_, ?_, ?_⟩
  · rw [Prod.mk.injEq]
    exact ⟨by rw [show file.drop s.pos = ch%'<' :: ch%'<' :: t from hl]; rfl, rfl⟩
  · simp
  · simp [hlog]

theorem peek2_spec (file s) : (peek2 file s).1 = (rest file s).take 2 ∧ Step s (peek2 file s).2 0 [] ∧
    ∀ b c t, rest file s = b :: c :: t → (peek2 file s).2.pos + 2 ≤ (peek2 file s).2.lim := by
  refine ⟨rfl, ⟨rfl, by simp [peek2]⟩, ?_⟩
  intro b c t h
  have : (rest file s).length = t.length + 2 := by rw [h]; rfl
  rw [rest_length] at this
  simp only [peek2, bufSize]
  split <;> omega

theorem Rel.of_read {s : PS} {dec : Bytes → Res Bytes} {raw : Bytes × PS} {r : LR Bytes} (h : Done s [] raw r) :
    Rel s ((dec raw.1 >>= fun d => Res.ok (d, raw.2)) >>= fun (p : Bytes × PS) => .ok ((Obj.str p.1, RErr.nil), p.2)) (lDec dec r) := by
  have hv := h.val
  simp only [List.nil_append] at hv
  rw [lDec, ← hv]
  cases dec raw.1 with
  | ok d => exact ⟨rfl, h.step⟩
  | panic w => exact rfl
  | oof => trivial

theorem readObject_spec (file : Bytes) (dec : Bytes → Res Bytes) : ∀ f,
    (∀ s, Rel s (readObject file dec f s) (lObj dec f (rest file s))) ∧
    (∀ s acc, Rel s (arrLoop file dec f s acc) (lArr dec f (rest file s) acc)) ∧
    (∀ s d, Rel s (dictLoop file dec f s d) (lDict dec f (rest file s) d)) := by
  intro f
  induction f with
  | zero =>
    refine ⟨?_, ?_, ?_⟩ <;> intros <;> simp [readObject, arrLoop, dictLoop, lObj, lArr, lDict, Rel]
  | succ f ih =>
    obtain ⟨ihO, ihA, ihD⟩ := ih
    have ihO' : ∀ s l, rest file s = l → Rel s (readObject file dec f s) (lObj dec f l) := by
      intro s l h; subst h; exact ihO s
    have ihA' : ∀ s l acc, rest file s = l → Rel s (arrLoop file dec f s acc) (lArr dec f l acc) := by
      intro s l acc h; subst h; exact ihA s acc
    have ihD' : ∀ s l acc, rest file s = l → Rel s (dictLoop file dec f s acc) (lDict dec f l acc) := by
      intro s l acc h; subst h; exact ihD s acc
    refine ⟨?_, ?_, ?_⟩
    · intro s
      rw [readObject, lObj]
      refine Rel.skip (consumeWs_step file s) ?_
      have hr := rest_eq (file := file) (consumeWs_step file s).pos
      rw [← hr]
      generalize consumeWs file s = s0
      obtain ⟨p1, p2, p3⟩ := peek2_spec file s0
      have hr0 := rest_eq (file := file) p2.pos
      rw [List.drop_zero] at hr0
      generalize hpk : peek2 file s0 = P at *
      obtain ⟨pk, s1⟩ := P
      simp only at p1 p2 p3 hr0 ⊢
      rw [p1, ← hr0]
      have hlim : ∀ b c t, rest file s1 = b :: c :: t → s1.pos + 2 ≤ s1.lim := by rw [hr0]; exact p3
      suffices hmain : ∀ l, rest file s1 = l → Rel s1 _ _ by
        have := hmain _ rfl
        rw [show ∀ y, Rel s0 y = Rel s1 y from ?_]
        · exact this
        · intro y; funext z
          cases y with
          | ok a => cases z with
            | ok r =>
              simp only [Rel, eq_iff_iff]
              have h1 := p2.pos; have h2 := p2.log
              constructor
              · rintro ⟨a, ⟨b, c⟩⟩; exact ⟨a, ⟨by rw [b, h1]; rfl, by rw [c, h2]; simp⟩⟩
              · rintro ⟨a, ⟨b, c⟩⟩; exact ⟨a, ⟨by rw [b, h1]; rfl, by rw [c, h2]; simp⟩⟩
            | panic w => rfl
            | oof => rfl
          | panic w => cases z <;> rfl
          | oof => cases z <;> rfl
      intro l hl
      clear hr hr0 p1 p2 p3 hpk s0 pk
      rw [hl]
      cases l with
      | nil => exact ⟨rfl, Step.refl s1⟩
      | cons b0 u =>
        simp only [List.take_succ_cons]
        have htail : rest file s1 = b0 :: u := hl
        by_cases c1 : (b0 == ch%'/') = true
        · simp only [c1, if_true]
          have := readName_spec file s1
          rw [hl] at this
          exact ⟨by rw [this.val]; rfl, this.step⟩
        simp only [c1, if_false, Bool.false_eq_true]
        by_cases c2 : (b0 == ch%'[') = true
        · simp only [c2, if_true]
          obtain ⟨s2, e1, e2⟩ := readArrayHead_spec (file := file) (s := s1) (t := u) (by rw [hl, eq_of_beq c2])
          rw [e1]
          simp only
          refine Rel.skip e2 ?_
          refine Rel.bind (ihA' s2 _ [] ?_) ?_
          · rw [rest_eq e2.pos, hl]
          · intro a s' n es _
            exact ⟨rfl, Step.refl s'⟩
        simp only [c2, if_false, Bool.false_eq_true]
        by_cases c3 : (b0 == ch%']') = true
        · simp only [c3, if_true]
          exact ⟨rfl, ⟨rfl, by simp [discard]⟩⟩
        simp only [c3, if_false, Bool.false_eq_true]
        by_cases c4 : (b0 == ch%'(') = true
        · simp only [c4, if_true]
          have := readStringRaw_spec file s1
          rw [hl] at this
          exact Rel.of_read this
        simp only [c4, if_false, Bool.false_eq_true]
        by_cases c5 : (b0 == ch%')') = true
        · simp only [c5, if_true]
          exact ⟨rfl, ⟨rfl, by simp [discard]⟩⟩
        simp only [c5, if_false, Bool.false_eq_true]
        by_cases c6 : (b0 :: u.take 1 == b!"<<") = true
        · simp only [c6, if_true]
          have hu : ∃ t, b0 :: u = ch%'<' :: ch%'<' :: t := by
            have := eq_of_beq c6
            cases u with
            | nil => cases this
            | cons c t =>
              simp only [List.take_succ_cons, List.take_zero, List.cons.injEq, and_true] at this
              exact ⟨t, by rw [this.1, this.2]⟩
          obtain ⟨t, hu⟩ := hu
          rw [hu] at hl
          obtain ⟨s2, e1, e2⟩ := readDictHead_spec hl (hlim _ _ _ hl)
          rw [e1]
          simp only
          refine Rel.skip e2 ?_
          refine Rel.bind (ihD' s2 _ [] ?_) ?_
          · rw [rest_eq e2.pos, hl, hu]
          · intro a s' n es _
            exact ⟨rfl, Step.refl s'⟩
        simp only [c6, if_false, Bool.false_eq_true]
        by_cases c7 : (b0 :: u.take 1 == b!">>") = true
        · simp only [c7, if_true]
          exact ⟨rfl, ⟨rfl, by simp [discard]⟩⟩
        simp only [c7, if_false, Bool.false_eq_true]
        by_cases c8 : (b0 == ch%'<') = true
        · simp only [c8, if_true]
          have := readHexRaw_spec file s1
          rw [hl] at this
          exact Rel.of_read this
        simp only [c8, if_false, Bool.false_eq_true]
        by_cases c9 : (b0 == ch%'>') = true
        · simp only [c9, if_true]
          exact ⟨rfl, ⟨rfl, by simp [discard]⟩⟩
        simp only [c9, if_false, Bool.false_eq_true]
        split
        · have := readNumOrRef_spec file s1
          rw [hl] at this
          exact ⟨by rw [this.1], this.2⟩
        · have := readKeyword_spec file s1
          rw [hl] at this
          exact ⟨by rw [this.1], this.2⟩
    · intro s acc
      rw [arrLoop, lArr]
      refine Rel.bind (ihO s) ?_
      rintro ⟨e, err⟩ s' n es hst
      simp only
      split
      · exact ⟨rfl, ⟨by simp, by simp⟩⟩
      split
      · exact ⟨rfl, Step.refl s'⟩
      · exact ihA' s' _ _ (rest_eq hst.pos)
    · intro s d
      rw [dictLoop, lDict]
      refine Rel.bind (ihO s) ?_
      rintro ⟨e, err⟩ s' n es hst
      simp only
      split
      · exact ⟨rfl, ⟨by simp, by simp⟩⟩
      split
      · exact ⟨rfl, Step.refl s'⟩
      · have hother : Rel s' (dictLoop file dec f (logErr s' .invalidDictionaryKeyType) d)
            (lthen ((rest file s).drop n) (lret () [.invalidDictionaryKeyType]) fun _ t => lDict dec f t d) := by
          have h0 : Rel s' (Res.ok ((), logErr s' .invalidDictionaryKeyType)) (lret () [.invalidDictionaryKeyType]) :=
            ⟨rfl, ⟨by simp, by simp⟩⟩
          have := Rel.bind (l := (rest file s).drop n) (f := fun p => dictLoop file dec f p.2 d)
            (g := fun _ t => lDict dec f t d) h0 (by
              intro _ s'' m es2 hst2
              exact ihD' s'' _ _ (by rw [rest_eq hst2.pos, rest_eq hst.pos]))
          exact this
        cases e with
        | name key =>
          refine Rel.bind (ihO' s' _ (rest_eq hst.pos)) ?_
          rintro ⟨v, err2⟩ s'' m es2 hst2
          simp only
          split
          · exact ⟨rfl, ⟨by simp, by simp⟩⟩
          · exact ihD' s'' _ _ (by rw [rest_eq hst2.pos, rest_eq hst.pos])
        | _ => exact hother

end Pdf
