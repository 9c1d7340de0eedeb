import Verif.Model.Parser
/-!
Refinement of the byte readers to functions on the list of remaining bytes. `LR` is a result, the
number of bytes consumed, and the abnormalities logged.
-/

namespace Pdf

/-- The bytes not yet read. -/
def rest (file : Bytes) (s : PS) : Bytes := file.drop s.pos

/-- State after reading one byte. -/
def adv (file : Bytes) (s : PS) : PS :=
  { s with
    pos := s.pos + 1
    lim := if s.pos < s.lim then s.lim else min (s.pos + bufSize) file.length
    last := true }

@[simp] theorem adv_pos (file s) : (adv file s).pos = s.pos + 1 := rfl
@[simp] theorem adv_log (file s) : (adv file s).log = s.log := rfl
@[simp] theorem adv_last (file s) : (adv file s).last = true := rfl
@[simp] theorem logErr_pos (s e) : (logErr s e).pos = s.pos := rfl
@[simp] theorem logErr_log (s e) : (logErr s e).log = s.log ++ [e] := rfl
@[simp] theorem logErr_last (s e) : (logErr s e).last = s.last := rfl
@[simp] theorem unread_log (s) : (unreadByte s).log = s.log := by
  simp only [unreadByte]; split <;> rfl
theorem unread_pos (s : PS) (h : s.last = true) : (unreadByte s).pos = s.pos - 1 := by
  simp [unreadByte, h]
@[simp] theorem unread_adv_pos (file s) : (unreadByte (adv file s)).pos = s.pos := by
  simp [unreadByte]
@[simp] theorem unread_logErr_adv_pos (file s e) : (unreadByte (logErr (adv file s) e)).pos = s.pos := by
  simp [unreadByte]

theorem rest_cons_lt {file s b t} (h : rest file s = b :: t) : s.pos < file.length := by
  have : (rest file s).length = t.length + 1 := by rw [h]; rfl
  simp only [rest, List.length_drop] at this; omega

theorem readByte_nil {file s} (h : rest file s = []) : readByte file s = (none, s) := by
  have : file[s.pos]? = none := by
    rw [List.getElem?_eq_none]
    simpa [rest] using h
  simp [readByte, this]

theorem readByte_cons {file s b t} (h : rest file s = b :: t) : readByte file s = (some b, adv file s) := by
  have : file[s.pos]? = some b := by
    have := congrArg (·[0]?) h
    simpa [rest] using this
  simp [readByte, this, adv]

theorem rest_eq {file s s'} {n : Nat} (h : s'.pos = s.pos + n) : rest file s' = (rest file s).drop n := by
  simp only [rest, h, List.drop_drop]

theorem rest_adv {file s b t} (h : rest file s = b :: t) : rest file (adv file s) = t := by
  rw [rest_eq (n := 1) (adv_pos file s), h]; rfl

theorem rest_congr {file s s'} (h : s'.pos = s.pos) : rest file s' = rest file s := by
  simp only [rest, h]

theorem rest_length_le (file s) : (rest file s).length ≤ file.length := by
  simp only [rest, List.length_drop]; omega

theorem rest_length (file : Bytes) (s : PS) : (rest file s).length = file.length - s.pos := by
  simp only [rest, List.length_drop]

/-- Result, bytes consumed, abnormalities. -/
structure LR (α : Type) where
  val : α
  n : Nat
  errs : List Err := []
deriving DecidableEq, Repr

/-- `s'` is `s` after consuming `n` bytes and logging `es`. -/
structure Step (s s' : PS) (n : Nat) (es : List Err) : Prop where
  pos : s'.pos = s.pos + n
  log : s'.log = s.log ++ es

theorem Step.refl (s : PS) : Step s s 0 [] := ⟨rfl, by simp⟩

theorem Step.trans {s s' s'' : PS} {n m : Nat} {es fs : List Err} (h1 : Step s s' n es) (h2 : Step s' s'' m fs) :
    Step s s'' (n + m) (es ++ fs) :=
  ⟨by rw [h2.pos, h1.pos, Nat.add_assoc], by rw [h2.log, h1.log, List.append_assoc]⟩

theorem Step.adv (file : Bytes) (s : PS) : Step s (adv file s) 1 [] := ⟨rfl, by simp⟩

theorem Step.cast {s s' : PS} {n m : Nat} {es fs : List Err} (h : Step s s' n es) (hn : n = m) (he : es = fs) :
    Step s s' m fs := by subst hn; subst he; exact h

/-! ### White space and comments -/

/-- Is `b` a line feed or carriage return? -/
def isEol (b : UInt8) : Bool := b == 0x0A || b == 0x0D

/-- Number of bytes of white space and comments in front; the flag says "inside a comment". -/
def skipWs : Bool → Bytes → Nat
  | _, [] => 0
  | true, b :: t => skipWs (!isEol b) t + 1
  | false, b :: t => if b == ch%'%' then skipWs true t + 1 else if isWs b then skipWs false t + 1 else 0

theorem skipWs_le : ∀ c l, skipWs c l ≤ l.length := by
  intro c l
  induction l generalizing c with
  | nil => cases c <;> simp [skipWs]
  | cons b t ih =>
    cases c
    · simp only [skipWs, List.length_cons]
      split
      · have := ih true; omega
      split
      · have := ih false; omega
      · omega
    · simp only [skipWs, List.length_cons]
      have := ih (!isEol b); omega

theorem consumeComment_spec (file : Bytes) : ∀ f s, (rest file s).length < f →
    ∃ n, Step s (consumeComment file f s) n [] ∧ n ≤ (rest file s).length ∧
      skipWs true (rest file s) = n + skipWs false ((rest file s).drop n) := by
  intro f
  induction f with
  | zero => intro s h; omega
  | succ f ih =>
    intro s hf
    rw [consumeComment]
    cases hl : rest file s with
    | nil => rw [readByte_nil hl]; exact ⟨0, Step.refl s, by simp, by simp [skipWs]⟩
    | cons b t =>
      rw [readByte_cons hl]
      simp only
      have ht := rest_adv hl
      rw [hl] at hf
      by_cases h1 : b = 0x0A
      · subst h1
        refine ⟨1, ?_, by simp, by simp [skipWs, isEol]; omega⟩
        simpa using Step.adv file s
      · by_cases h2 : b = 0x0D
        · subst h2
          simp only [beq_self_eq_true, if_true]
          rw [if_neg (by decide)]
          cases ht' : t with
          | nil =>
            rw [ht'] at ht
            rw [readByte_nil ht]
            exact ⟨1, Step.adv file s, by simp, by simp [skipWs]⟩
          | cons c u =>
            rw [ht'] at ht
            rw [readByte_cons ht]
            simp only
            by_cases hc : c = 0x0A
            · subst hc
              refine ⟨2, ?_, by simp, ?_⟩
              · simpa using (Step.adv file s).trans (Step.adv file _)
              · simp [skipWs, isEol, isWs, whitespace]; omega
            · refine ⟨1, ?_, by simp, by simp [skipWs, isEol]; omega⟩
              simp only [bne_iff_ne, ne_eq, hc, not_false_eq_true, if_true]
              exact ⟨by simp, by simp⟩
        · have e1 : (b == 0x0A) = false := by simpa using h1
          have e2 : (b == 0x0D) = false := by simpa using h2
          simp only [e1, e2, Bool.false_eq_true, if_false]
          obtain ⟨n, s1, s2, s3⟩ := ih (adv file s) (by rw [ht]; simp at hf; omega)
          rw [ht] at s2 s3
          refine ⟨n + 1, ?_, by simp; omega, ?_⟩
          · exact ((Step.adv file s).trans s1).cast (by omega) (by simp)
          · simp only [skipWs, isEol, e1, e2, Bool.or_self, Bool.not_false, List.drop_succ_cons]
            rw [s3]; omega

theorem consumeWsLoop_spec (file : Bytes) : ∀ f s, (rest file s).length < f →
    Step s (consumeWsLoop file f s) (skipWs false (rest file s)) [] := by
  intro f
  induction f with
  | zero => intro s h; omega
  | succ f ih =>
    intro s hf
    rw [consumeWsLoop]
    cases hl : rest file s with
    | nil => rw [readByte_nil hl]; exact Step.refl s
    | cons b t =>
      rw [readByte_cons hl]
      simp only
      have ht := rest_adv hl
      rw [hl] at hf
      simp only [skipWs]
      split
      · obtain ⟨n, s1, s2, s3⟩ := consumeComment_spec file (file.length + 1) (adv file s)
          (by have := rest_length_le file (adv file s); omega)
        have hr := rest_eq (file := file) s1.pos
        have := ih (consumeComment file (file.length + 1) (adv file s)) (by
          rw [hr, ht]; simp at hf ⊢; omega)
        rw [hr, ht] at this
        rw [ht] at s3
        exact (((Step.adv file s).trans s1).trans this).cast (by omega) (by simp)
      · split
        · have := ih (adv file s) (by rw [ht]; simp at hf; omega)
          rw [ht] at this
          exact ((Step.adv file s).trans this).cast (by omega) (by simp)
        · exact ⟨by simp, by simp⟩

theorem consumeWs_step (file s) : Step s (consumeWs file s) (skipWs false (rest file s)) [] :=
  consumeWsLoop_spec file _ s (by have := rest_length_le file s; omega)

/-- After skipping, the next byte is neither white space nor a comment. -/
theorem skipWs_drop : ∀ (c : Bool) (l : Bytes) b t, l.drop (skipWs c l) = b :: t → isWs b = false ∧ b ≠ ch%'%' := by
  intro c l
  induction l generalizing c with
  | nil => intro b t h; simp at h
  | cons x l ih =>
    intro b t h
    cases c
    · simp only [skipWs] at h
      split at h
      · exact ih true b t (by simpa using h)
      · split at h
        · exact ih false b t (by simpa using h)
        · next h1 h2 =>
          simp only [List.drop_zero, List.cons.injEq] at h
          obtain ⟨rfl, _⟩ := h
          exact ⟨by simpa using h2, by simpa using h1⟩
    · simp only [skipWs] at h
      exact ih _ b t (by simpa using h)

/-! ### Integers and keywords -/

/-- Digits in front: value (continuing `v`) and count. -/
def intGo : Bytes → Int → Int × Nat
  | [], v => (v, 0)
  | b :: t, v => if isDigit b then ((intGo t (wrap64 (v * 10 + (b.toNat - 48 : Nat)))).1,
      (intGo t (wrap64 (v * 10 + (b.toNat - 48 : Nat)))).2 + 1) else (v, 0)

theorem readIntLoop_spec (file : Bytes) : ∀ f s v, (rest file s).length < f →
    (readIntLoop file f s v).1 = (intGo (rest file s) v).1 ∧
      Step s (readIntLoop file f s v).2 (intGo (rest file s) v).2 [] := by
  intro f
  induction f with
  | zero => intro s v h; omega
  | succ f ih =>
    intro s v hf
    rw [readIntLoop]
    cases hl : rest file s with
    | nil => rw [readByte_nil hl]; exact ⟨rfl, Step.refl s⟩
    | cons b t =>
      rw [readByte_cons hl]
      simp only [intGo]
      have ht := rest_adv hl
      rw [hl] at hf
      split
      · have := ih (adv file s) (wrap64 (v * 10 + (b.toNat - 48 : Nat))) (by rw [ht]; simp at hf; omega)
        rw [ht] at this
        exact ⟨this.1, ((Step.adv file s).trans this.2).cast (by simp; omega) (by simp)⟩
      · exact ⟨rfl, ⟨by simp, by simp⟩⟩

/-- `ReadInt` on the remaining bytes: `none` when no digit follows the white space. -/
def lInt (l : Bytes) : Option (Int × Nat) :=
  match l.drop (skipWs false l) with
  | [] => none
  | b :: t => if isDigit b then
      some ((intGo t ((b.toNat - 48 : Nat) : Int)).1, skipWs false l + 1 + (intGo t ((b.toNat - 48 : Nat) : Int)).2)
    else none

theorem readInt_some {file s v n} (h : lInt (rest file s) = some (v, n)) :
    ∃ s', readInt file s = ((v, true), s') ∧ Step s s' n [] := by
  have hw := consumeWs_step file s
  have hr := rest_eq (file := file) hw.pos
  simp only [lInt] at h
  rw [readInt]
  simp only
  cases hl : (rest file s).drop (skipWs false (rest file s)) with
  | nil => rw [hl] at h; simp at h
  | cons b t =>
    rw [hl] at h hr
    simp only at h
    rw [readByte_cons hr]
    simp only
    split at h
    · next hd =>
      rw [if_pos hd]
      have ht := rest_adv hr
      have := readIntLoop_spec file (file.length + 1) (adv file (consumeWs file s)) ((b.toNat - 48 : Nat) : Int)
        (by have := rest_length_le file (adv file (consumeWs file s)); omega)
      rw [ht] at this
      simp only [Option.some.injEq, Prod.mk.injEq] at h
      refine ⟨(readIntLoop file (file.length + 1) (adv file (consumeWs file s)) ((b.toNat - 48 : Nat) : Int)).2, ?_, ?_⟩
      · simp only [this.1, h.1]
      · exact ((hw.trans (Step.adv file _)).trans this.2).cast h.2 (by simp)
    · simp at h

theorem readInt_none {file s} (h : lInt (rest file s) = none) :
    ∃ s', readInt file s = ((0, false), s') ∧ s'.log = s.log ∧
      (rest file (consumeWs file s) ≠ [] → Step s s' (skipWs false (rest file s)) []) ∧
      s'.pos ≤ s.pos + skipWs false (rest file s) := by
  have hw := consumeWs_step file s
  have hr := rest_eq (file := file) hw.pos
  simp only [lInt] at h
  rw [readInt]
  simp only
  cases hl : (rest file s).drop (skipWs false (rest file s)) with
  | nil =>
    rw [hl] at hr
    rw [readByte_nil hr]
    refine ⟨_, rfl, by simp [hw.log], fun hne => absurd hr hne, ?_⟩
    simp only [unreadByte]
    split
    · simp [hw.pos]
    · simp [hw.pos]
  | cons b t =>
    rw [hl] at h hr
    simp only at h
    rw [readByte_cons hr]
    simp only
    split at h
    · simp at h
    · next hd =>
      rw [if_neg hd]
      refine ⟨_, rfl, by simp [hw.log], fun _ => ⟨by simp [hw.pos], by simp [hw.log]⟩, by simp [hw.pos]⟩

/-- Regular bytes in front. -/
def kwGo : Bytes → Bytes
  | [] => []
  | b :: t => if isWs b || isDelim b then [] else b :: kwGo t

theorem readKeywordLoop_spec (file : Bytes) : ∀ f s acc, (rest file s).length < f →
    (readKeywordLoop file f s acc).1 = acc ++ kwGo (rest file s) ∧
      Step s (readKeywordLoop file f s acc).2 (kwGo (rest file s)).length [] := by
  intro f
  induction f with
  | zero => intro s v h; omega
  | succ f ih =>
    intro s acc hf
    rw [readKeywordLoop]
    cases hl : rest file s with
    | nil => rw [readByte_nil hl]; exact ⟨by simp [kwGo], Step.refl s⟩
    | cons b t =>
      rw [readByte_cons hl]
      simp only [kwGo]
      have ht := rest_adv hl
      rw [hl] at hf
      split
      · exact ⟨by simp, ⟨by simp, by simp⟩⟩
      · have := ih (adv file s) (acc ++ [b]) (by rw [ht]; simp at hf; omega)
        rw [ht] at this
        exact ⟨by rw [this.1]; simp, ((Step.adv file s).trans this.2).cast (by simp; omega) (by simp)⟩

/-- `ReadKeyword` on the remaining bytes. -/
def lKeyword (l : Bytes) : LR Bytes :=
  let n := skipWs false l
  ⟨kwGo (l.drop n), n + (kwGo (l.drop n)).length, []⟩

theorem readKeyword_spec (file s) : (readKeyword file s).1 = (lKeyword (rest file s)).val ∧
    Step s (readKeyword file s).2 (lKeyword (rest file s)).n (lKeyword (rest file s)).errs := by
  have hw := consumeWs_step file s
  have hr := rest_eq (file := file) hw.pos
  have := readKeywordLoop_spec file (file.length + 1) (consumeWs file s) []
    (by have := rest_length_le file (consumeWs file s); omega)
  rw [hr] at this
  exact ⟨by simpa [readKeyword, lKeyword] using this.1, (hw.trans this.2).cast rfl (by simp [lKeyword])⟩

end Pdf
