import Verif.Lemmas.Cursor
import Verif.Spec.Stream
/-!
Reading stream data.
-/

namespace Pdf
open Spec

/-- Number of bytes up to and including the first line break. -/
def eolSkip : Bytes → Option Nat
  | [] => none
  | b :: t =>
    if b == 0x0A then some 1
    else if b == 0x0D then
      match t with
      | [] => none
      | c :: _ => some (if c == 0x0A then 2 else 1)
    else (eolSkip t).map (· + 1)

/-- Offset of the first mark. -/
def findEnd : Bytes → Option Nat
  | [] => none
  | b :: t => if endMark <+: b :: t then some 0 else (findEnd t).map (· + 1)

theorem adv_lim (file : Bytes) (s : PS) : (adv file s).lim = if s.pos < s.lim then s.lim else min (s.pos + bufSize) file.length := rfl

theorem buffered_adv {file : Bytes} {s : PS} {n : Nat} (h : Buffered file s (n + 1)) : Buffered file (adv file s) n := by
  unfold Buffered at *
  rw [adv_lim, adv_pos]
  simp only [bufSize]
  split <;> omega

theorem buffered_unread {file : Bytes} {s : PS} {n : Nat} (h : Buffered file s (n + 1)) : Buffered file (unreadByte (adv file s)) (n + 1) := by
  unfold Buffered at *
  have e : (unreadByte (adv file s)).lim = if s.pos < s.lim then s.lim else min (s.pos + bufSize) file.length := by
    simp [unreadByte, adv]
  rw [unread_adv_pos, e]
  simp only [bufSize]
  split <;> omega

theorem skip_spec (file : Bytes) : ∀ f s, (rest file s).length < f →
    match eolSkip (rest file s) with
    | none => ∃ s', skipToStreamData file f s = (false, s') ∧ Step s s' (rest file s).length []
    | some n => ∃ s', skipToStreamData file f s = (true, s') ∧ Step s s' n [] ∧
        ∀ m, 0 < m → Buffered file s (n + m) → Buffered file s' m := by
  intro f
  induction f with
  | zero => intro s h; omega
  | succ f ih =>
    intro s hf
    cases hr : rest file s with
    | nil =>
      simp only [eolSkip]
      rw [skipToStreamData, readByte_nil hr]
      exact ⟨s, rfl, .refl s⟩
    | cons b t =>
      rw [skipToStreamData, readByte_cons hr, eolSkip.eq_def]
      simp only
      by_cases h1 : (b == 0x0A) = true
      · simp only [h1, if_true]
        exact ⟨_, rfl, Step.adv file s, fun m _ hb => buffered_adv (by rw [Nat.add_comm] at hb; exact hb)⟩
      · simp only [h1]
        have hra := rest_adv hr
        by_cases h2 : (b == 0x0D) = true
        · simp only [h2, if_true]
          cases t with
          | nil =>
            rw [readByte_nil hra]
            exact ⟨_, rfl, by simpa using Step.adv file s⟩
          | cons c u =>
            rw [readByte_cons hra]
            simp only
            by_cases h3 : (c == 0x0A) = true
            · have h3' : (c != 0x0A) = false := by simpa using h3
              simp only [h3, h3', if_true]
              refine ⟨_, rfl, ((Step.adv file s).trans (Step.adv file _)).cast rfl rfl, fun m _ hb => ?_⟩
              have hb' : Buffered file s ((m + 1) + 1) := by rw [show m + 1 + 1 = 2 + m by omega]; exact hb
              exact buffered_adv (buffered_adv hb')
            · have h3' : (c != 0x0A) = true := by simpa using h3
              simp only [h3, h3', if_true]
              refine ⟨_, rfl, ⟨by simp, by simp⟩, fun m hm hb => ?_⟩
              obtain ⟨k, rfl⟩ : ∃ k, m = k + 1 := ⟨m - 1, by omega⟩
              have hb' : Buffered file s (k + 1 + 1) := by rw [show k + 1 + 1 = 1 + (k + 1) by omega]; exact hb
              exact buffered_unread (buffered_adv hb')
        · simp only [h2]
          have := ih (adv file s) (by rw [hra]; rw [hr] at hf; simp at hf; omega)
          rw [hra] at this
          cases he : eolSkip t with
          | none =>
            rw [he] at this
            obtain ⟨s', e1, e2⟩ := this
            exact ⟨s', e1, ((Step.adv file s).trans e2).cast (by simp; omega) rfl⟩
          | some n =>
            rw [he] at this
            obtain ⟨s', e1, e2, e3⟩ := this
            refine ⟨s', e1, ((Step.adv file s).trans e2).cast (by simp only; omega) rfl, fun m hm hb => e3 m hm (buffered_adv ?_)⟩
            rw [show n + m + 1 = n + 1 + m by omega]; exact hb

theorem take_min_length {α : Type} (l : List α) (k n : Nat) (h : min k l.length = min n l.length) : l.take k = l.take n := by
  rw [List.take_eq_take_min (i := k), List.take_eq_take_min (i := n), h]

theorem readN_spec {file : Bytes} {s : PS} {n : Nat} (hb : Buffered file s n) :
    (readN file s n).1 = (rest file s).take n ∧ Step s (readN file s n).2 (min n (rest file s).length) [] := by
  have hl := rest_length file s
  unfold Buffered at hb
  rw [readN]
  by_cases h1 : s.pos < s.lim
  · rw [if_pos h1]
    simp only
    have hk : min n (s.lim - s.pos) = min n (rest file s).length := by omega
    refine ⟨?_, ?_, by simp⟩
    · rw [hk]
      rw [← rest]; exact take_min_length _ _ _ (by omega)
    · simp only [hk]
  · rw [if_neg h1]
    by_cases h2 : s.pos < file.length
    · rw [if_pos h2]
      simp only [bufSize]
      have hk : min n (min (s.pos + 4096) file.length - s.pos) = min n (rest file s).length := by omega
      refine ⟨?_, ?_, by simp⟩
      · rw [hk]
        rw [← rest]; exact take_min_length _ _ _ (by omega)
      · simp only [hk]
    · rw [if_neg h2]
      have : rest file s = [] := List.eq_nil_of_length_eq_zero (by omega)
      rw [this]
      exact ⟨by simp, by simpa using Step.refl s⟩

/-- The search loop with a full window. -/
theorem streamLoop_full (file : Bytes) : ∀ f s win acc, win.length = 9 → (rest file s).length + 1 < f →
    match findEnd (win ++ rest file s) with
    | some i => (streamLoop file f s win acc).1 = trimEol (acc ++ (win ++ rest file s).take i) ∧
        Step s (streamLoop file f s win acc).2 i []
    | none => (streamLoop file f s win acc).1 = acc ++ (win ++ rest file s) ∧
        Step s (streamLoop file f s win acc).2 (rest file s).length [.unclosedStream] := by
  intro f
  induction f with
  | zero => intro s win acc _ h; omega
  | succ f ih =>
    intro s win acc hw hf
    rw [streamLoop.eq_def]
    simp only
    by_cases h1 : win = b!"endstream"
    · rw [if_pos h1]
      have : findEnd (win ++ rest file s) = some 0 := by
        rw [h1]
        simp only [List.cons_append, findEnd]
        rw [if_pos]
        exact ⟨rest file s, rfl⟩
      rw [this]
      exact ⟨by simp, .refl s⟩
    · rw [if_neg h1]
      cases win with
      | nil => simp at hw
      | cons b win =>
        have hnp : ¬ endMark <+: b :: (win ++ rest file s) := by
          rintro ⟨t, ht⟩
          apply h1
          have := congrArg (List.take 9) ht
          rw [List.take_append_of_le_length (by decide), ← List.cons_append, List.take_append_of_le_length (by omega)] at this
          rw [List.take_of_length_le (i := 9) (l := b :: win) (by omega)] at this
          exact this.symm
        simp only [List.cons_append, findEnd, if_neg hnp]
        cases hr : rest file s with
        | nil =>
          rw [readByte_nil hr]
          have hl8 : win.length = 8 := by simpa using hw
          have : findEnd (win ++ []) = none := by
            have key : ∀ l : Bytes, l.length ≤ 8 → findEnd l = none := by
              intro l
              induction l with
              | nil => intro _; rfl
              | cons c l ih =>
                intro hl
                rw [findEnd, if_neg, ih (by simp at hl; omega)]
                · rfl
                · rintro ⟨t, ht⟩
                  have := congrArg List.length ht
                  simp [endMark] at this hl
                  omega
            exact key _ (by simp; omega)
          rw [this]
          simp only [Option.map_none]
          exact ⟨by simp, ⟨by simp, by simp⟩⟩
        | cons c r =>
          rw [readByte_cons hr]
          simp only
          have hra := rest_adv hr
          have := ih (adv file s) (win ++ [c]) (acc ++ [b]) (by simpa using hw) (by rw [hra]; rw [hr] at hf; simp at hf; omega)
          rw [hra, List.append_assoc, List.singleton_append] at this
          cases hfe : findEnd (win ++ c :: r) with
          | some i =>
            rw [hfe] at this
            simp only [Option.map_some]
            refine ⟨by rw [this.1]; simp, ((Step.adv file s).trans this.2).cast (by omega) rfl⟩
          | none =>
            rw [hfe] at this
            simp only [Option.map_none]
            refine ⟨by rw [this.1]; simp, ((Step.adv file s).trans this.2).cast (by simp; omega) rfl⟩

theorem findEnd_short : ∀ l : Bytes, l.length ≤ 8 → findEnd l = none := by
  intro l
  induction l with
  | nil => intro _; rfl
  | cons c l ih =>
    intro hl
    rw [findEnd, if_neg, ih (by simp at hl; omega)]
    · rfl
    · rintro ⟨t, ht⟩
      have := congrArg List.length ht
      simp [endMark] at this hl
      omega

/-- The raw data of a stream, on the remaining bytes. -/
def lStream (l : Bytes) : LR (Option Bytes) :=
  match eolSkip l with
  | none => ⟨none, l.length, []⟩
  | some k =>
    match findEnd (l.drop k) with
    | some i => ⟨some (trimEol ((l.drop k).take i)), k + i + 9, []⟩
    | none => ⟨some (l.drop k), l.length, if l.drop k = [] then [] else [.unclosedStream]⟩

theorem findEnd_le : ∀ (l : Bytes) (i : Nat), findEnd l = some i → endMark <+: l.drop i ∧ i + 9 ≤ l.length := by
  intro l
  induction l with
  | nil => intro i h; cases h
  | cons b l ih =>
    intro i h
    rw [findEnd] at h
    split at h
    · rename_i hp
      injection h with h
      subst h
      refine ⟨hp, ?_⟩
      have := hp.length_le
      simpa [endMark] using this
    · cases hf : findEnd l with
      | none => rw [hf] at h; cases h
      | some j =>
        rw [hf] at h
        injection h with h
        obtain ⟨h1, h2⟩ := ih j hf
        subst h
        exact ⟨by simpa using h1, by simp only [List.length_cons]; omega⟩

theorem eolSkip_le : ∀ (l : Bytes) (i : Nat), eolSkip l = some i → i ≤ l.length := by
  intro l
  induction l with
  | nil => intro i h; cases h
  | cons b l ih =>
    intro i h
    rw [eolSkip.eq_def] at h
    simp only at h
    split at h
    · injection h with h; subst h; simp
    · split at h
      · cases l with
        | nil => cases h
        | cons c l => injection h with h; subst h; simp only [List.length_cons]; split <;> omega
      · cases hf : eolSkip l with
        | none => rw [hf] at h; cases h
        | some j =>
          rw [hf] at h
          injection h with h
          have := ih j hf
          subst h
          simp only [List.length_cons]; omega

/-- `ReadStream` up to decryption, when the first nine bytes of data come out of one buffer. -/
theorem readStreamRaw_spec {file : Bytes} {s : PS} (hb : ∀ k, eolSkip (rest file s) = some k → Buffered file s (k + 9)) :
    (readStreamRaw file s).1 = (lStream (rest file s)).val ∧
      Step s (readStreamRaw file s).2 (lStream (rest file s)).n (lStream (rest file s)).errs := by
  have hs := skip_spec file (file.length + 1) s (by have := rest_length_le file s; omega)
  rw [readStreamRaw, lStream]
  cases he : eolSkip (rest file s) with
  | none =>
    rw [he] at hs
    obtain ⟨s', e1, e2⟩ := hs
    rw [e1]
    exact ⟨rfl, e2⟩
  | some k =>
    rw [he] at hs
    obtain ⟨s1, e1, e2, e3⟩ := hs
    rw [e1]
    simp only
    obtain ⟨r1, r2⟩ := readN_spec (e3 9 (by decide) (hb k he))
    have hr1 : rest file s1 = (rest file s).drop k := rest_eq e2.pos
    have hlen := rest_length_le file s
    have hk := eolSkip_le _ _ he
    generalize readN file s1 9 = X at r1 r2
    obtain ⟨win, s2⟩ := X
    simp only at r1 r2 ⊢
    have hr2 : rest file s2 = (rest file s1).drop (min 9 (rest file s1).length) := rest_eq r2.pos
    by_cases h9 : 9 ≤ (rest file s1).length
    · rw [Nat.min_eq_left h9] at hr2 r2
      have hw : win.length = 9 := by rw [r1, List.length_take]; omega
      have hbody : win ++ rest file s2 = (rest file s).drop k := by rw [r1, hr2, List.take_append_drop, hr1]
      have := streamLoop_full file (file.length + 2) s2 win [] hw (by have := rest_length_le file s2; omega)
      rw [hbody] at this
      cases hf : findEnd ((rest file s).drop k) with
      | some i =>
        rw [hf] at this
        exact ⟨by simp [this.1], ((e2.trans r2).trans this.2).cast (by simp only; omega) rfl⟩
      | none =>
        rw [hf] at this
        have hne : (rest file s).drop k ≠ [] := by rw [← hr1]; intro h; rw [h] at h9; simp at h9
        refine ⟨by simp [this.1], ((e2.trans r2).trans this.2).cast ?_ (by simp [hne])⟩
        rw [hr2, List.length_drop, hr1, List.length_drop]
        rw [hr1, List.length_drop] at h9
        simp only
        omega
    · rw [Nat.min_eq_right (by omega)] at hr2 r2
      rw [List.take_of_length_le (by omega)] at r1
      have hr2' : rest file s2 = [] := by rw [hr2]; simp
      have hfe : findEnd ((rest file s).drop k) = none := by rw [← hr1]; exact findEnd_short _ (by omega)
      rw [hfe]
      simp only
      have hwne : win ≠ b!"endstream" := by rintro rfl; apply h9; rw [← r1]; decide
      rw [streamLoop.eq_def]
      simp only
      rw [if_neg hwne]
      cases hwin : win with
      | nil =>
        have hnil : (rest file s).drop k = [] := by rw [← hr1, ← r1, hwin]
        simp only [hnil, if_true]
        refine ⟨trivial, (e2.trans r2).cast ?_ rfl⟩
        rw [hr1, hnil]
        have := congrArg List.length hnil
        rw [List.length_drop] at this
        simp at this ⊢
        omega
      | cons b u =>
        rw [readByte_nil hr2']
        have hne : (rest file s).drop k ≠ [] := by rw [← hr1, ← r1, hwin]; simp
        rw [if_neg hne]
        refine ⟨by rw [← hr1, ← r1, hwin]; simp, ((e2.trans r2).trans (s'' := logErr s2 .unclosedStream) (m := 0) ⟨rfl, rfl⟩).cast ?_ rfl⟩
        rw [hr1, List.length_drop]
        omega

/-! ### Specification of the pieces -/

theorem eolSkip_break {x e r : Bytes} (hx : ∀ b ∈ x, b ≠ 10 ∧ b ≠ 13) (he : LineBreak e r) : eolSkip (x ++ (e ++ r)) = some (x.length + e.length) := by
  induction x with
  | nil =>
    rcases he with rfl | rfl | ⟨rfl, b, t, rfl, hb⟩
    · rfl
    · rfl
    · simp [eolSkip, hb]
  | cons b x ih =>
    obtain ⟨h1, h2⟩ := hx b (by simp)
    rw [List.cons_append, eolSkip.eq_def]
    simp only
    rw [if_neg (by simpa using h1), if_neg (by simpa using h2), ih (fun c hc => hx c (by simp [hc]))]
    simp; omega

theorem findEnd_first {d r : Bytes} (h : FirstMark d r) : findEnd (d ++ (endMark ++ r)) = some d.length := by
  induction d with
  | nil => simp only [List.nil_append, List.length_nil]; rfl
  | cons b d ih =>
    rw [List.cons_append, findEnd, if_neg, ih]
    · rfl
    · intro d' r' he
      have := h (b :: d') r' (by rw [List.cons_append, List.cons_append, he])
      simpa using this
    · rintro ⟨t, ht⟩
      have := h [] t (by rw [List.nil_append, ht]; rfl)
      simp at this

theorem findEnd_noMark {d : Bytes} (h : NoMark d) : findEnd d = none := by
  induction d with
  | nil => rfl
  | cons b d ih =>
    rw [findEnd, if_neg, ih]
    · rfl
    · intro d' r' he; exact h (b :: d') r' (by rw [he]; rfl)
    · rintro ⟨t, ht⟩; exact h [] t (by rw [← ht]; rfl)

theorem trimEol_chop {d v : Bytes} (h : Chop d v) : trimEol d = v := by
  cases h with
  | crlf v =>
    have e : v ++ [13, 10] = (v ++ [13]) ++ [10] := by simp
    rw [e, trimEol, if_pos (by simp)]
    rw [List.dropLast_concat, if_pos (by simp), List.dropLast_concat]
  | lf v hv => rw [trimEol, if_pos (by simp), List.dropLast_concat, if_neg hv]
  | cr v => rw [trimEol, if_neg (by simp), if_pos (by simp), List.dropLast_concat]
  | none v h1 h2 => rw [trimEol, if_neg h1, if_neg h2]

theorem chop_total (d : Bytes) : ∃ v, Chop d v := by
  by_cases h1 : d.getLast? = some 10
  · obtain ⟨ys, rfl⟩ := List.getLast?_eq_some_iff.1 h1
    by_cases h2 : ys.getLast? = some 13
    · obtain ⟨zs, rfl⟩ := List.getLast?_eq_some_iff.1 h2
      exact ⟨zs, by simpa using Chop.crlf zs⟩
    · exact ⟨ys, .lf ys h2⟩
  · by_cases h2 : d.getLast? = some 13
    · obtain ⟨ys, rfl⟩ := List.getLast?_eq_some_iff.1 h2
      exact ⟨ys, .cr ys⟩
    · exact ⟨d, .none d h1 h2⟩

/-- The raw data of a well-formed stream. -/
theorem readStreamRaw_data {x e d v r : Bytes} (hx : ∀ b ∈ x, b ≠ 10 ∧ b ≠ 13) (he : LineBreak e (d ++ (endMark ++ r)))
    (hd : FirstMark d r) (hv : Chop d v) {file : Bytes} {s : PS}
    (hin : file.drop s.pos = x ++ (e ++ (d ++ (endMark ++ r))))
    (hb : Buffered file s (x.length + e.length + 9)) :
    (readStreamRaw file s).1 = some v ∧ Step s (readStreamRaw file s).2 (x.length + e.length + d.length + 9) [] := by
  have hsk : eolSkip (rest file s) = some (x.length + e.length) := by
    rw [rest, hin]; exact eolSkip_break hx he
  have hls : lStream (rest file s) = ⟨some v, x.length + e.length + d.length + 9, []⟩ := by
    have hdr : (rest file s).drop (x.length + e.length) = d ++ (endMark ++ r) := by
      rw [rest, hin, ← List.append_assoc, ← List.length_append, List.drop_left]
    rw [lStream, hsk]
    show (match findEnd ((rest file s).drop (x.length + e.length)) with | some i => _ | none => _ : LR (Option Bytes)) = _
    rw [hdr, findEnd_first hd]
    show LR.mk _ _ _ = _
    rw [List.take_left, trimEol_chop hv]
  obtain ⟨h1, h2⟩ := readStreamRaw_spec (file := file) (s := s) (by intro k hk; rw [hsk] at hk; cases hk; exact hb)
  rw [hls] at h1 h2
  exact ⟨h1, h2⟩

end Pdf
