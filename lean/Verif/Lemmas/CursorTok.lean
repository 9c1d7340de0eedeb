import Verif.Lemmas.Cursor
/-!
Refinement of names, numbers, hex strings and literal strings to functions on lists.
-/

namespace Pdf

/-- Put consumed bytes, results and abnormalities in front. -/
def LR.pre (v : Bytes) (n : Nat) (es : List Err) (r : LR Bytes) : LR Bytes :=
  ⟨v ++ r.val, n + r.n, es ++ r.errs⟩

@[simp] theorem LR.pre_val (v n es r) : (LR.pre v n es r).val = v ++ r.val := rfl
@[simp] theorem LR.pre_n (v n es r) : (LR.pre v n es r).n = n + r.n := rfl
@[simp] theorem LR.pre_errs (v n es r) : (LR.pre v n es r).errs = es ++ r.errs := rfl

/-- `s` with accumulator `acc` ends in `res`: `r` is what the rest of the input contributes. -/
structure Done (s : PS) (acc : Bytes) (res : Bytes × PS) (r : LR Bytes) : Prop where
  val : res.1 = acc ++ r.val
  step : Step s res.2 r.n r.errs

theorem Done.pre {s s' : PS} {acc v : Bytes} {res : Bytes × PS} {r : LR Bytes} {n : Nat} {es : List Err}
    (h1 : Step s s' n es) (h2 : Done s' (acc ++ v) res r) : Done s acc res (LR.pre v n es r) :=
  ⟨by rw [h2.val]; simp, (h1.trans h2.step).cast rfl rfl⟩

/-! ### Names -/

/-- The digits of an escape: at most `n` hex digits. -/
def nameCode : Nat → Bytes → Bytes × List Err
  | 0, _ => ([], [])
  | _ + 1, [] => ([], [])
  | n + 1, b :: t => if isHex b then (b :: (nameCode n t).1, (nameCode n t).2) else ([], [.invalidNameEscapeChar])

/-- The abnormality of an unnecessary name escape. -/
def nameEscErr (b : UInt8) : List Err := if nameEscapeUnneeded b then [.unnecessaryEscapeName] else []

/-- A name after the slash; the first `k` bytes of the list are skipped. -/
def nameGo : Nat → Bytes → LR Bytes
  | _, [] => ⟨[], 0, []⟩
  | k + 1, _ :: t => nameGo k t
  | 0, b :: t =>
    if isDelim b || isWs b then ⟨[], 0, []⟩
    else if b == ch%'#' then
      let code := nameCode 2 t
      let v := nameCodeVal code.1
      LR.pre [v] (1 + code.1.length) (code.2 ++ nameEscErr v) (nameGo code.1.length t)
    else LR.pre [b] 1 [] (nameGo 0 t)

theorem nameGo_skip : ∀ (k : Nat) (l : Bytes), nameGo k l = nameGo 0 (l.drop k) := by
  intro k l
  induction l generalizing k with
  | nil => cases k <;> simp [nameGo]
  | cons b t ih =>
    cases k with
    | zero => rfl
    | succ k => rw [nameGo, ih k]; rfl

theorem readNameCode_spec (file : Bytes) : ∀ n s code,
    (readNameCode file n s code).1 = code ++ (nameCode n (rest file s)).1 ∧
      Step s (readNameCode file n s code).2 (nameCode n (rest file s)).1.length (nameCode n (rest file s)).2 := by
  intro n
  induction n with
  | zero => intro s code; exact ⟨by simp [readNameCode, nameCode], Step.refl s⟩
  | succ n ih =>
    intro s code
    rw [readNameCode]
    cases hl : rest file s with
    | nil => rw [readByte_nil hl]; exact ⟨by simp [nameCode], Step.refl s⟩
    | cons b t =>
      rw [readByte_cons hl]
      simp only [nameCode]
      have ht := rest_adv hl
      split
      · have := ih (adv file s) (code ++ [b])
        rw [ht] at this
        exact ⟨by rw [this.1]; simp, ((Step.adv file s).trans this.2).cast (by simp; omega) (by simp)⟩
      · exact ⟨by simp, ⟨by simp, by simp⟩⟩

theorem nameCode_length_le : ∀ n l, (nameCode n l).1.length ≤ l.length := by
  intro n
  induction n with
  | zero => intro l; simp [nameCode]
  | succ n ih =>
    intro l
    cases l with
    | nil => simp [nameCode]
    | cons b t => simp only [nameCode]; split <;> simp; exact ih t

theorem readNameLoop_spec (file : Bytes) : ∀ f s acc, (rest file s).length < f →
    Done s acc (readNameLoop file f s acc) (nameGo 0 (rest file s)) := by
  intro f
  induction f with
  | zero => intro s acc h; omega
  | succ f ih =>
    intro s acc hf
    rw [readNameLoop]
    cases hl : rest file s with
    | nil => rw [readByte_nil hl]; exact ⟨by simp [nameGo], Step.refl s⟩
    | cons b t =>
      rw [readByte_cons hl]
      simp only [nameGo]
      have ht := rest_adv hl
      rw [hl] at hf
      split
      · exact ⟨by simp, ⟨by simp, by simp⟩⟩
      split
      · have hc := readNameCode_spec file 2 (adv file s) []
        rw [ht] at hc
        obtain ⟨c1, c2⟩ := hc
        simp only [List.nil_append] at c1
        generalize hcode : readNameCode file 2 (adv file s) [] = rc at c1 c2
        obtain ⟨rc1, rc2⟩ := rc
        simp only at c1 c2
        subst c1
        have hle := nameCode_length_le 2 t
        have hstep : Step s (if nameEscapeUnneeded (nameCodeVal (nameCode 2 t).1) then
            logErr rc2 .unnecessaryEscapeName else rc2) (1 + (nameCode 2 t).1.length)
            ((nameCode 2 t).2 ++ nameEscErr (nameCodeVal (nameCode 2 t).1)) := by
          have h1 := (Step.adv file s).trans c2
          simp only [nameEscErr]
          split
          · exact ⟨by simp [h1.pos], by simp [h1.log]⟩
          · exact h1.cast rfl (by simp)
        refine Done.pre hstep ?_
        have hr := rest_eq (file := file) hstep.pos
        rw [hl, Nat.add_comm, List.drop_succ_cons] at hr
        have := ih (if nameEscapeUnneeded (nameCodeVal (nameCode 2 t).1) then
            logErr rc2 .unnecessaryEscapeName else rc2) (acc ++ [nameCodeVal (nameCode 2 t).1]) (by rw [hr]; simp at hf ⊢; omega)
        rw [hr, ← nameGo_skip] at this
        exact this
      · have := ih (adv file s) (acc ++ [b]) (by rw [ht]; simp at hf; omega)
        rw [ht] at this
        exact Done.pre (Step.adv file s) this

/-- `ReadName` on the remaining bytes. -/
def lName (l : Bytes) : LR Bytes :=
  let n := skipWs false l
  match l.drop n with
  | [] => ⟨[], n, []⟩
  | b :: t => if b != ch%'/' then ⟨[], n + 1, []⟩ else LR.pre [] (n + 1) [] (nameGo 0 t)

theorem readName_spec (file s) : Done s [] (readName file s) (lName (rest file s)) := by
  have hw := consumeWs_step file s
  have hr := rest_eq (file := file) hw.pos
  rw [readName]
  simp only [lName]
  cases hl : (rest file s).drop (skipWs false (rest file s)) with
  | nil =>
    rw [hl] at hr
    rw [readByte_nil hr]
    exact ⟨by simp, hw⟩
  | cons b t =>
    rw [hl] at hr
    rw [readByte_cons hr]
    simp only
    split
    · exact ⟨by simp, (hw.trans (Step.adv file _)).cast rfl (by simp)⟩
    · have ht := rest_adv hr
      have := readNameLoop_spec file (file.length + 1) (adv file (consumeWs file s)) []
        (by have := rest_length_le file (adv file (consumeWs file s)); omega)
      rw [ht] at this
      exact Done.pre (v := []) (hw.trans (Step.adv file _)) this

/-! ### Numbers -/

/-- Digits before the point; the flag says that a point follows (and was consumed). -/
def wholeGo : Bytes → F64 → (F64 × Bool) × Nat
  | [], x => ((x, false), 0)
  | b :: t, x =>
    if isDigit b then ((wholeGo t (x.mul10Add (b.toNat - 48))).1, (wholeGo t (x.mul10Add (b.toNat - 48))).2 + 1)
    else if b == ch%'.' then ((x, true), 1)
    else ((x, false), 0)

/-- Digits after the point. -/
def fracGo : Bytes → F64 → Nat → F64 × Nat
  | [], x, _ => (x, 0)
  | b :: t, x, i =>
    if isDigit b then ((fracGo t (x.addFrac (b.toNat - 48) i) (i + 1)).1, (fracGo t (x.addFrac (b.toNat - 48) i) (i + 1)).2 + 1)
    else (x, 0)

theorem readWholeLoop_spec (file : Bytes) : ∀ f s x, (rest file s).length < f →
    (readWholeLoop file f s x).1 = (wholeGo (rest file s) x).1 ∧
      Step s (readWholeLoop file f s x).2 (wholeGo (rest file s) x).2 [] := by
  intro f
  induction f with
  | zero => intro s v h; omega
  | succ f ih =>
    intro s x hf
    rw [readWholeLoop]
    cases hl : rest file s with
    | nil => rw [readByte_nil hl]; exact ⟨rfl, Step.refl s⟩
    | cons b t =>
      rw [readByte_cons hl]
      simp only [wholeGo]
      have ht := rest_adv hl
      rw [hl] at hf
      split
      · have := ih (adv file s) (x.mul10Add (b.toNat - 48)) (by rw [ht]; simp at hf; omega)
        rw [ht] at this
        exact ⟨this.1, ((Step.adv file s).trans this.2).cast (by simp; omega) (by simp)⟩
      split
      · exact ⟨rfl, Step.adv file s⟩
      · exact ⟨rfl, ⟨by simp, by simp⟩⟩

theorem readFracLoop_spec (file : Bytes) : ∀ f s x i, (rest file s).length < f →
    (readFracLoop file f s x i).1 = (fracGo (rest file s) x i).1 ∧
      Step s (readFracLoop file f s x i).2 (fracGo (rest file s) x i).2 [] := by
  intro f
  induction f with
  | zero => intro s v i h; omega
  | succ f ih =>
    intro s x i hf
    rw [readFracLoop]
    cases hl : rest file s with
    | nil => rw [readByte_nil hl]; exact ⟨rfl, Step.refl s⟩
    | cons b t =>
      rw [readByte_cons hl]
      simp only [fracGo]
      have ht := rest_adv hl
      rw [hl] at hf
      split
      · have := ih (adv file s) (x.addFrac (b.toNat - 48) i) (i + 1) (by rw [ht]; simp at hf; omega)
        rw [ht] at this
        exact ⟨this.1, ((Step.adv file s).trans this.2).cast (by simp; omega) (by simp)⟩
      · exact ⟨rfl, ⟨by simp, by simp⟩⟩

/-- A number whose first byte is `b`; `t` follows. Bytes after `b` consumed. -/
def numGo (b : UInt8) (t : Bytes) : F64 × Nat :=
  let x : F64 := if isDigit b then F64.mul10Add (.fin 0) (b.toNat - 48) else .fin 0
  let w := if b == ch%'.' then ((x, true), 0) else wholeGo t x
  let r := if w.1.2 then fracGo (t.drop w.2) w.1.1 1 else (w.1.1, 0)
  (if b == ch%'-' then r.1.neg else r.1, w.2 + r.2)

/-- `ReadNumber` on the remaining bytes. -/
def lNumber (l : Bytes) : F64 × Nat :=
  let n := skipWs false l
  match l.drop n with
  | [] => (.fin 0, n)
  | b :: t =>
    if b == ch%'-' || isDigit b || b == ch%'.' || b == ch%'+' then ((numGo b t).1, n + 1 + (numGo b t).2)
    else (.fin 0, n)

theorem readNumber_spec (file s) : (readNumber file s).1 = (lNumber (rest file s)).1 ∧
    Step s (readNumber file s).2 (lNumber (rest file s)).2 [] := by
  have hw := consumeWs_step file s
  have hr := rest_eq (file := file) hw.pos
  rw [readNumber]
  simp only [lNumber]
  cases hl : (rest file s).drop (skipWs false (rest file s)) with
  | nil =>
    rw [hl] at hr
    rw [readByte_nil hr]
    exact ⟨rfl, hw⟩
  | cons b t =>
    rw [hl] at hr
    rw [readByte_cons hr]
    simp only
    split
    · have ht := rest_adv hr
      have hs1 := hw.trans (Step.adv file (consumeWs file s))
      generalize adv file (consumeWs file s) = s1 at *
      generalize hx : (if isDigit b then F64.mul10Add (.fin 0) (b.toNat - 48) else (F64.fin 0 : F64)) = x
      have hwhole : (if b == ch%'.' then ((x, true), s1) else readWholeLoop file (file.length + 1) s1 x).1
            = (if b == ch%'.' then ((x, true), 0) else wholeGo t x).1 ∧
          Step s1 (if b == ch%'.' then ((x, true), s1) else readWholeLoop file (file.length + 1) s1 x).2
            (if b == ch%'.' then ((x, true), 0) else wholeGo t x).2 [] := by
        split
        · exact ⟨rfl, Step.refl s1⟩
        · have := readWholeLoop_spec file (file.length + 1) s1 x (by have := rest_length_le file s1; omega)
          rw [ht] at this; exact this
      simp only [numGo, hx]
      generalize (if b == ch%'.' then ((x, true), s1) else readWholeLoop file (file.length + 1) s1 x) = W at hwhole
      generalize (if b == ch%'.' then ((x, true), 0) else wholeGo t x) = W' at hwhole
      obtain ⟨⟨wx, wr⟩, ws⟩ := W
      obtain ⟨⟨wx', wr'⟩, wn⟩ := W'
      obtain ⟨e1, e2⟩ := hwhole
      simp only [Prod.mk.injEq] at e1
      obtain ⟨rfl, rfl⟩ := e1
      simp only at e2 ⊢
      have hr2 := rest_eq (file := file) e2.pos
      rw [ht] at hr2
      cases wr
      · simp only [Bool.false_eq_true, if_false]
        exact ⟨by trivial, (hs1.trans e2).cast (by omega) (by simp)⟩
      · simp only [if_true]
        have := readFracLoop_spec file (file.length + 1) ws wx 1 (by have := rest_length_le file ws; omega)
        rw [hr2] at this
        exact ⟨by rw [this.1], ((hs1.trans e2).trans this.2).cast (by omega) (by simp)⟩
    · exact ⟨rfl, ⟨by simp [hw.pos], by simp [hw.log]⟩⟩

/-! ### Hex strings -/

/-- The last byte of an odd number of digits. -/
def hexFin : Option UInt8 → Bytes
  | some h => [(parseHex2 h ch%'0').getD 0]
  | none => []

/-- A hex string after `<`; the first argument says "inside a comment", the second is a pending digit. -/
def hexGo : Bool → Option UInt8 → Bytes → LR Bytes
  | _, pend, [] => ⟨hexFin pend, 0, [.unclosedHexString]⟩
  | true, pend, b :: t => LR.pre [] 1 [] (hexGo (!isEol b) pend t)
  | false, pend, b :: t =>
    if b == ch%'%' then LR.pre [] 1 [] (hexGo true pend t)
    else if isWs b then LR.pre [] 1 [] (hexGo false pend t)
    else if b == ch%'>' then ⟨hexFin pend, 1, []⟩
    else if !isHex b then LR.pre [] 1 [.invalidHexStringChar] (hexGo false pend t)
    else match pend with
      | none => LR.pre [] 1 [] (hexGo false (some b) t)
      | some h => LR.pre [(parseHex2 h b).getD 0] 1 [] (hexGo false none t)

theorem hexGo_skip : ∀ (c : Bool) (pend : Option UInt8) (l : Bytes),
    hexGo c pend l = LR.pre [] (skipWs c l) [] (hexGo false pend (l.drop (skipWs c l))) := by
  intro c pend l
  induction l generalizing c with
  | nil => cases c <;> simp [hexGo, LR.pre, skipWs]
  | cons b t ih =>
    cases c
    · simp only [skipWs]
      split
      · next h =>
        rw [hexGo.eq_def]; simp only [h, if_true]; rw [ih true]
        simp [LR.pre]; omega
      · next h =>
        split
        · next h2 =>
          rw [hexGo.eq_def]; simp only [h, h2, if_true, if_false, Bool.false_eq_true]; rw [ih false]
          simp [LR.pre]; omega
        · simp [LR.pre]
    · rw [hexGo, ih]
      simp only [skipWs]
      simp [LR.pre]; omega

theorem readHexLoop_spec (file : Bytes) : ∀ f s pend acc, (rest file s).length < f →
    Done s acc (readHexLoop file f s pend acc) (hexGo false pend (rest file s)) := by
  intro f
  induction f with
  | zero => intro s pend acc h; omega
  | succ f ih =>
    intro s pend acc hf
    rw [readHexLoop, hexGo_skip]
    have hw := consumeWs_step file s
    have hr := rest_eq (file := file) hw.pos
    refine Done.pre (v := []) hw ?_
    simp only [List.append_nil]
    have hlen : (rest file (consumeWs file s)).length ≤ (rest file s).length := by rw [hr]; simp
    have hnw := skipWs_drop false (rest file s)
    rw [← hr] at hnw
    rw [← hr]
    generalize consumeWs file s = s1 at *
    cases hl : rest file s1 with
    | nil =>
      rw [readByte_nil hl]
      simp only [hexGo]
      refine ⟨?_, ⟨by simp, by simp⟩⟩
      cases pend <;> simp [hexFin]
    | cons b t =>
      rw [readByte_cons hl]
      simp only
      have ht := rest_adv hl
      obtain ⟨n1, n2⟩ := hnw b t hl
      have hlt : (rest file (adv file s1)).length < f := by rw [ht]; rw [hl] at hlen; simp at hlen; omega
      rw [hexGo.eq_def]
      simp only [beq_eq_false_iff_ne.2 n2, n1, Bool.false_eq_true, if_false]
      split
      · refine ⟨?_, Step.adv file s1⟩
        cases pend <;> simp [hexFin]
      split
      · have := ih (logErr (adv file s1) .invalidHexStringChar) pend acc (by
          rwa [show rest file (logErr (adv file s1) .invalidHexStringChar) = rest file (adv file s1) from rfl])
        rw [show rest file (logErr (adv file s1) .invalidHexStringChar) = t from ht] at this
        exact Done.pre (v := []) (s' := logErr (adv file s1) .invalidHexStringChar) ⟨by simp, by simp⟩ (by simpa using this)
      · cases pend with
        | none =>
          have := ih (adv file s1) (some b) acc hlt
          rw [ht] at this
          exact Done.pre (v := []) (Step.adv file s1) (by simpa using this)
        | some h =>
          have := ih (adv file s1) none (acc ++ [(parseHex2 h b).getD 0]) hlt
          rw [ht] at this
          exact Done.pre (Step.adv file s1) this

/-- `ReadHexString` on the remaining bytes, before decryption. -/
def lHex (l : Bytes) : LR Bytes :=
  let n := skipWs false l
  match l.drop n with
  | [] => ⟨[], n, []⟩
  | b :: t => if b != ch%'<' then ⟨[], n + 1, []⟩ else LR.pre [] (n + 1) [] (hexGo false none t)

theorem readHexRaw_spec (file s) : Done s [] (readHexRaw file s) (lHex (rest file s)) := by
  have hw := consumeWs_step file s
  have hr := rest_eq (file := file) hw.pos
  rw [readHexRaw]
  simp only [lHex]
  cases hl : (rest file s).drop (skipWs false (rest file s)) with
  | nil =>
    rw [hl] at hr
    rw [readByte_nil hr]
    exact ⟨by simp, hw⟩
  | cons b t =>
    rw [hl] at hr
    rw [readByte_cons hr]
    simp only
    split
    · exact ⟨by simp, (hw.trans (Step.adv file _)).cast rfl (by simp)⟩
    · have ht := rest_adv hr
      have := readHexLoop_spec file (file.length + 1) (adv file (consumeWs file s)) none []
        (by have := rest_length_le file (adv file (consumeWs file s)); omega)
      rw [ht] at this
      exact Done.pre (v := []) (hw.trans (Step.adv file _)) this

/-! ### Literal strings -/

/-- At most `n` more octal digits. -/
def octMore : Nat → Bytes → Bytes × List Err
  | 0, _ => ([], [])
  | _ + 1, [] => ([], [.unclosedStringOctal])
  | n + 1, b :: t => if isOctal b then (b :: (octMore n t).1, (octMore n t).2) else ([], [])

/-- The abnormality of an unnecessary octal escape. -/
def strEscErr (b : UInt8) : List Err := if stringEscapeUnneeded b then [.unnecessaryEscapeString] else []

/-- An octal escape with first digit `b`, followed by `t`: byte, bytes of `t` consumed, abnormalities. -/
def octGo (b : UInt8) (t : Bytes) : UInt8 × Nat × List Err :=
  let more := octMore 2 t
  let code := b :: more.1
  if octalVal code < 256 then
    (UInt8.ofNat (octalVal code), more.1.length, more.2 ++ strEscErr (UInt8.ofNat (octalVal code)))
  else
    (UInt8.ofNat (octalVal code.dropLast), more.1.length - 1,
      more.2 ++ [.invalidOctal] ++ strEscErr (UInt8.ofNat (octalVal code.dropLast)))

/-- An escape in a literal string, after the backslash. -/
structure Esc where
  /-- Bytes contributed. -/
  val : Bytes
  /-- Bytes consumed after the backslash. -/
  n : Nat
  /-- Abnormalities. -/
  errs : List Err
  /-- The input ended inside the escape. -/
  stop : Bool

/-- The escape at the head of `t`. -/
def strEsc : Bytes → Esc
  | [] => ⟨[0x5C], 0, [.unclosedStringEscape], true⟩
  | c :: u =>
    if c == 0x0A then ⟨[], 1, [], false⟩
    else if c == 0x0D then
      match u with
      | [] => ⟨[], 1, [.unclosedStringEscape], true⟩
      | d :: _ => if d != 0x0A then ⟨[], 1, [], false⟩ else ⟨[], 2, [], false⟩
    else if isOctal (namedEscape c) then
      ⟨[(octGo (namedEscape c) u).1], 1 + (octGo (namedEscape c) u).2.1, (octGo (namedEscape c) u).2.2, false⟩
    else ⟨[namedEscape c], 1, [], false⟩

/-- Parentheses open after reading `b`. -/
def strOpens (opens : Nat) (b : UInt8) : Nat :=
  if b == ch%'(' then opens + 1 else if b == ch%')' then opens - 1 else opens

/-- A literal string inside `opens` parentheses; the first `k` bytes of the list are skipped. -/
def strGo : Nat → Nat → Bytes → LR Bytes
  | _, _, [] => ⟨[], 0, [.unclosedString]⟩
  | k + 1, opens, _ :: t => strGo k opens t
  | 0, opens, b :: t =>
    if b == 0x5C then
      if (strEsc t).stop then ⟨(strEsc t).val, 1 + (strEsc t).n, (strEsc t).errs⟩
      else LR.pre (strEsc t).val (1 + (strEsc t).n) (strEsc t).errs (strGo (strEsc t).n opens t)
    else if strOpens opens b = 0 then ⟨[], 1, []⟩ else LR.pre [b] 1 [] (strGo 0 (strOpens opens b) t)

theorem strGo_skip : ∀ (k opens : Nat) (l : Bytes), strGo k opens l = strGo 0 opens (l.drop k) := by
  intro k opens l
  induction l generalizing k with
  | nil => cases k <;> simp [strGo]
  | cons b t ih =>
    cases k with
    | zero => rfl
    | succ k => rw [strGo, ih k]; rfl

theorem readOctalMore_spec (file : Bytes) : ∀ n s code,
    (readOctalMore file n s code).1 = code ++ (octMore n (rest file s)).1 ∧
      Step s (readOctalMore file n s code).2 (octMore n (rest file s)).1.length (octMore n (rest file s)).2 ∧
      (0 < n → (octMore n (rest file s)).1.length = n → (readOctalMore file n s code).2.last = true) := by
  intro n
  induction n with
  | zero => intro s code; exact ⟨by simp [readOctalMore, octMore], Step.refl s, by simp⟩
  | succ n ih =>
    intro s code
    rw [readOctalMore]
    cases hl : rest file s with
    | nil => rw [readByte_nil hl]; exact ⟨by simp [octMore], ⟨by simp [octMore], by simp [octMore]⟩, by simp [octMore]⟩
    | cons b t =>
      rw [readByte_cons hl]
      simp only [octMore]
      have ht := rest_adv hl
      split
      · obtain ⟨i1, i2, i3⟩ := ih (adv file s) (code ++ [b])
        rw [ht] at i1 i2 i3
        refine ⟨by rw [i1]; simp, ((Step.adv file s).trans i2).cast (by simp; omega) (by simp), ?_⟩
        intro _ h
        simp only [List.length_cons, Nat.add_right_cancel_iff] at h
        rcases Nat.eq_zero_or_pos n with rfl | hn
        · simp [readOctalMore]
        · exact i3 hn h
      · exact ⟨by simp, ⟨by simp, by simp⟩, by simp⟩

theorem octMore_length_le : ∀ n l, (octMore n l).1.length ≤ l.length ∧ (octMore n l).1.length ≤ n := by
  intro n
  induction n with
  | zero => intro l; simp [octMore]
  | succ n ih =>
    intro l
    cases l with
    | nil => simp [octMore]
    | cons b t => simp only [octMore]; split <;> simp; exact ih t

theorem octMore_octal : ∀ n l, ∀ b ∈ (octMore n l).1, isOctal b = true := by
  intro n
  induction n with
  | zero => intro l; simp [octMore]
  | succ n ih =>
    intro l
    cases l with
    | nil => simp [octMore]
    | cons b t =>
      simp only [octMore]
      split
      · next h => simp only [List.mem_cons, forall_eq_or_imp]; exact ⟨h, ih t⟩
      · simp

theorem isOctal_le {b : UInt8} (h : isOctal b = true) : b.toNat - 48 ≤ 7 := by
  simp only [isOctal, Bool.and_eq_true, decide_eq_true_eq, UInt8.le_iff_toNat_le] at h
  have : (55 : UInt8).toNat = 55 := rfl
  omega

/-- Only three digits can exceed 255. -/
theorem octal_big {b : UInt8} {t : Bytes} (hb : isOctal b = true)
    (h : ¬ octalVal (b :: (octMore 2 t).1) < 256) : (octMore 2 t).1.length = 2 := by
  have hl := (octMore_length_le 2 t).2
  have ho := octMore_octal 2 t
  generalize (octMore 2 t).1 = m at *
  have hb := isOctal_le hb
  match m, hl with
  | [], _ => simp [octalVal] at h; omega
  | [c], _ =>
    have hc := isOctal_le (ho c (by simp))
    simp [octalVal] at h; omega
  | [c, d], _ => rfl

theorem readOctal_spec (file s b) (hb : isOctal b = true) :
    (readOctal file s b).1 = (octGo b (rest file s)).1 ∧
      Step s (readOctal file s b).2 (octGo b (rest file s)).2.1 (octGo b (rest file s)).2.2 := by
  obtain ⟨h1, h2, h3⟩ := readOctalMore_spec file 2 s [b]
  have hbig := octal_big (t := rest file s) hb
  simp only [List.singleton_append] at h1
  rw [readOctal]
  simp only [octGo]
  generalize hrc : readOctalMore file 2 s [b] = rc at *
  obtain ⟨rc1, rc2⟩ := rc
  simp only at h1 h2 h3
  subst h1
  simp only
  by_cases hv : octalVal (b :: (octMore 2 (rest file s)).1) < 256
  · simp only [hv, if_true]
    refine ⟨by trivial, ?_⟩
    simp only [strEscErr]
    split
    · exact ⟨by simp [h2.pos], by simp [h2.log]⟩
    · exact h2.cast rfl (by simp)
  · simp only [hv, if_false]
    refine ⟨by trivial, ?_⟩
    have hl := h3 (by omega) (hbig hv)
    have hp : (unreadByte (logErr rc2 .invalidOctal)).pos = s.pos + ((octMore 2 (rest file s)).1.length - 1) := by
      have := hbig hv
      rw [unread_pos _ (by simpa using hl)]; simp [h2.pos]; omega
    simp only [strEscErr]
    split
    · exact ⟨by simp [hp], by simp [h2.log]⟩
    · exact ⟨hp, by simp [h2.log]⟩

theorem octGo_le (b : UInt8) (t : Bytes) : (octGo b t).2.1 ≤ t.length := by
  have := (octMore_length_le 2 t).1
  simp only [octGo]; split <;> simp <;> omega

theorem readStringLoop_spec (file : Bytes) : ∀ f s opens acc, (rest file s).length < f →
    Done s acc (readStringLoop file f s opens acc) (strGo 0 opens (rest file s)) := by
  intro f
  induction f with
  | zero => intro s opens acc h; omega
  | succ f ih =>
    intro s opens acc hf
    rw [readStringLoop]
    cases hl : rest file s with
    | nil => rw [readByte_nil hl]; exact ⟨by simp [strGo], ⟨by simp [strGo], by simp [strGo]⟩⟩
    | cons b t =>
      rw [readByte_cons hl]
      have ht := rest_adv hl
      rw [hl] at hf
      simp only [List.length_cons] at hf
      rw [strGo]
      simp only
      split
      · cases t with
        | nil => rw [readByte_nil ht]; exact ⟨by simp [strEsc], ⟨by simp [strEsc], by simp [strEsc]⟩⟩
        | cons c u =>
          rw [readByte_cons ht]
          simp only
          have hu := rest_adv ht
          have s2 := (Step.adv file s).trans (Step.adv file (adv file s))
          simp only [List.length_cons] at hf
          by_cases h1 : (c == 0x0A) = true
          · have he : strEsc (c :: u) = ⟨[], 1, [], false⟩ := by simp only [strEsc, h1, if_true]
            simp only [he, h1, if_true, Bool.false_eq_true, if_false]
            have := ih (adv file (adv file s)) opens acc (by rw [hu]; omega)
            rw [hu, show strGo 0 opens u = strGo 1 opens (c :: u) from (strGo_skip 1 opens (c :: u)).symm] at this
            exact Done.pre (v := []) s2 (by simpa using this)
          simp only [h1, if_false, Bool.false_eq_true]
          by_cases h2 : (c == 0x0D) = true
          · simp only [h2, if_true]
            cases u with
            | nil =>
              have he : strEsc [c] = ⟨[], 1, [.unclosedStringEscape], true⟩ := by
                simp only [strEsc, h1, h2, if_true, Bool.false_eq_true, if_false]
              rw [readByte_nil hu]; exact ⟨by simp [he], ⟨by simp [he], by simp [he]⟩⟩
            | cons d w =>
              rw [readByte_cons hu]
              simp only
              have hw := rest_adv hu
              simp only [List.length_cons] at hf
              by_cases h3 : (d != 0x0A) = true
              · have he : strEsc (c :: d :: w) = ⟨[], 1, [], false⟩ := by
                  simp only [strEsc, h1, h2, h3, if_true, Bool.false_eq_true, if_false]
                simp only [he, h3, if_true, Bool.false_eq_true, if_false]
                have hst : Step s (unreadByte (adv file (adv file (adv file s)))) 2 [] := ⟨by simp, by simp⟩
                have hr := rest_eq (file := file) hst.pos
                rw [hl] at hr
                have := ih (unreadByte (adv file (adv file (adv file s)))) opens acc (by rw [hr]; simp; omega)
                rw [hr] at this
                rw [strGo_skip 1]
                exact Done.pre (v := []) hst (by simpa using this)
              · have he : strEsc (c :: d :: w) = ⟨[], 2, [], false⟩ := by
                  simp only [strEsc, h1, h2, h3, if_true, Bool.false_eq_true, if_false]
                simp only [he, h3, Bool.false_eq_true, if_false]
                have := ih (adv file (adv file (adv file s))) opens acc (by rw [hw]; omega)
                rw [hw] at this
                rw [strGo_skip 2]
                exact Done.pre (v := []) (s2.trans (Step.adv file _)) (by simpa using this)
          simp only [h2, if_false, Bool.false_eq_true]
          by_cases ho : isOctal (namedEscape c) = true
          · have he : strEsc (c :: u) = ⟨[(octGo (namedEscape c) u).1], 1 + (octGo (namedEscape c) u).2.1,
                (octGo (namedEscape c) u).2.2, false⟩ := by
              simp only [strEsc, h1, h2, ho, if_true, Bool.false_eq_true, if_false]
            simp only [he, ho, if_true, Bool.false_eq_true, if_false]
            obtain ⟨o1, o2⟩ := readOctal_spec file (adv file (adv file s)) (namedEscape c) ho
            rw [hu] at o1 o2
            have hst := (s2.trans o2).cast (Nat.add_assoc 1 1 _) (List.nil_append _)
            have hr := rest_eq (file := file) hst.pos
            have hle := octGo_le (namedEscape c) u
            rw [hl] at hr
            generalize hro : readOctal file (adv file (adv file s)) (namedEscape c) = ro at *
            obtain ⟨ro1, ro2⟩ := ro
            simp only at o1 hst hr ⊢
            subst o1
            have hdrop : List.drop (1 + (1 + (octGo (namedEscape c) u).2.1)) (b :: c :: u) =
                List.drop (1 + (octGo (namedEscape c) u).2.1) (c :: u) := by
              rw [show 1 + (1 + (octGo (namedEscape c) u).2.1) = (1 + (octGo (namedEscape c) u).2.1) + 1 by omega]; rfl
            have := ih ro2 opens (acc ++ [(octGo (namedEscape c) u).1]) (by rw [hr]; simp; omega)
            rw [hr, hdrop, ← strGo_skip] at this
            exact Done.pre hst this
          · have he : strEsc (c :: u) = ⟨[namedEscape c], 1, [], false⟩ := by
              simp only [strEsc, h1, h2, ho, if_true, Bool.false_eq_true, if_false]
            simp only [he, ho, Bool.false_eq_true, if_false]
            have := ih (adv file (adv file s)) opens (acc ++ [namedEscape c]) (by rw [hu]; omega)
            rw [hu] at this
            rw [strGo_skip 1]
            exact Done.pre s2 this
      · change Done s acc (if strOpens opens b = 0 then (acc, adv file s) else
          readStringLoop file f (adv file s) (strOpens opens b) (acc ++ [b])) _
        split
        · exact ⟨by simp, Step.adv file s⟩
        · have := ih (adv file s) (strOpens opens b) (acc ++ [b]) (by rw [ht]; omega)
          rw [ht] at this
          exact Done.pre (Step.adv file s) this

/-- `ReadString` on the remaining bytes, before decryption. -/
def lStr (l : Bytes) : LR Bytes :=
  let n := skipWs false l
  match l.drop n with
  | [] => ⟨[], n, []⟩
  | b :: t => if b != ch%'(' then ⟨[], n + 1, []⟩ else LR.pre [] (n + 1) [] (strGo 0 1 t)

theorem readStringRaw_spec (file s) : Done s [] (readStringRaw file s) (lStr (rest file s)) := by
  have hw := consumeWs_step file s
  have hr := rest_eq (file := file) hw.pos
  rw [readStringRaw]
  simp only [lStr]
  cases hl : (rest file s).drop (skipWs false (rest file s)) with
  | nil =>
    rw [hl] at hr
    rw [readByte_nil hr]
    exact ⟨by simp, hw⟩
  | cons b t =>
    rw [hl] at hr
    rw [readByte_cons hr]
    simp only
    split
    · exact ⟨by simp, (hw.trans (Step.adv file _)).cast rfl (by simp)⟩
    · have ht := rest_adv hr
      have := readStringLoop_spec file (file.length + 1) (adv file (consumeWs file s)) 1 []
        (by have := rest_length_le file (adv file (consumeWs file s)); omega)
      rw [ht] at this
      exact Done.pre (v := []) (hw.trans (Step.adv file _)) this

end Pdf
