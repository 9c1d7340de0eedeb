import Verif.Lemmas.Stream
import Verif.Model.GetObject
/-!
C18, C19 and the stream part of C11: where stream data starts and ends.

The statements use `readStream` with no filters and any decryption; the bytes handed to the decryption
are the undecoded stream data.
-/

namespace Pdf.Props
open Pdf Spec

theorem readStream_raw {file : Bytes} {cd : Codecs} {rs : Resolver} {dec : Bytes → Res Bytes} {s : PS} {v p : Bytes}
    (h : (readStreamRaw file s).1 = some v) (hd : dec v = .ok p) :
    readStream file cd rs dec [] [] s = .ok (some p, (readStreamRaw file s).2) := by
  rw [readStream, St.bind_run, St.ofFun_run]
  show (match (readStreamRaw file s).1 with | none => _ | some raw => _ : M (Option Bytes)) (readStreamRaw file s).2 = _
  rw [h]
  show (St.ofRes (dec v) >>= _ : M (Option Bytes)) _ = _
  rw [St.bind_run, St.ofRes_run, hd]
  rfl

/-- **C18, partial** After anything without a line break comes a line break, then data `d`, then
`endstream` for the first time: the undecoded data is `d` without one trailing line break, nothing is
logged and the reader is after `endstream`. Missing: states in which the first nine bytes of data
straddle the end of the reader's buffer, where it is false (`C19_false`). -/
theorem C18_stream_partial {x e d v r p : Bytes} (hx : ∀ b ∈ x, b ≠ 10 ∧ b ≠ 13) (he : LineBreak e (d ++ (endMark ++ r)))
    (hd : FirstMark d r) (hv : Chop d v) (file : Bytes) (s : PS)
    (hin : file.drop s.pos = x ++ (e ++ (d ++ (endMark ++ r))))
    (hb : Buffered file s (x.length + e.length + 9))
    (cd : Codecs) (rs : Resolver) {dec : Bytes → Res Bytes} (hdec : dec v = .ok p) :
    ∃ s', readStream file cd rs dec [] [] s = .ok (some p, s') ∧
      s'.pos = s.pos + x.length + e.length + d.length + 9 ∧ s'.log = s.log := by
  obtain ⟨h1, h2⟩ := readStreamRaw_data hx he hd hv hin hb
  refine ⟨_, readStream_raw h1 hdec, ?_, ?_⟩
  · rw [h2.pos]; omega
  · rw [h2.log]; simp

/-- **C18 / C11, partial** No `endstream`: the undecoded data is everything to the end of the file, and
`unclosed stream` is logged. Missing: no data at all after the line break (`C11_stream_false`), and the
buffering condition. -/
theorem C18_unclosed_partial {x e d p : Bytes} (hx : ∀ b ∈ x, b ≠ 10 ∧ b ≠ 13) (he : LineBreak e d)
    (hd : NoMark d) (hne : d ≠ []) (file : Bytes) (s : PS) (hin : file.drop s.pos = x ++ (e ++ d))
    (hb : Buffered file s (x.length + e.length + 9))
    (cd : Codecs) (rs : Resolver) {dec : Bytes → Res Bytes} (hdec : dec d = .ok p) :
    ∃ s', readStream file cd rs dec [] [] s = .ok (some p, s') ∧
      s'.pos = file.length ∧ s'.log = s.log ++ [.unclosedStream] := by
  have hsk : eolSkip (rest file s) = some (x.length + e.length) := by
    rw [rest, hin]; exact eolSkip_break hx he
  have hls : lStream (rest file s) = ⟨some d, (rest file s).length, [.unclosedStream]⟩ := by
    have hdr : (rest file s).drop (x.length + e.length) = d := by
      rw [rest, hin, ← List.append_assoc, ← List.length_append, List.drop_left]
    rw [lStream, hsk]
    show (match findEnd ((rest file s).drop (x.length + e.length)) with | some i => _ | none => _ : LR (Option Bytes)) = _
    rw [hdr, findEnd_noMark hd]
    show LR.mk _ _ _ = _
    rw [if_neg hne]
  obtain ⟨h1, h2⟩ := readStreamRaw_spec (file := file) (s := s) (by intro k hk; rw [hsk] at hk; cases hk; exact hb)
  rw [hls] at h1 h2
  refine ⟨_, readStream_raw h1 hdec, ?_, ?_⟩
  · rw [h2.pos]
    simp only
    rw [rest_length]
    have : (file.drop s.pos).length ≠ 0 := by
      rw [hin]; simp only [List.length_append]
      have := List.length_pos_iff.2 hne; omega
    simp only [List.length_drop] at this
    omega
  · rw [h2.log]

theorem chop_b : Chop b!"BT\x0d\n" b!"BT" := Chop.crlf b!"BT"

theorem firstMark_of {d r : Bytes} (h : findEnd (d ++ (endMark ++ r)) = some d.length) : FirstMark d r := by
  intro d' r' he
  induction d generalizing d' with
  | nil => exact Nat.zero_le _
  | cons b d ih =>
    rw [List.cons_append, findEnd] at h
    split at h
    · cases h
    · rename_i hp
      cases d' with
      | nil => exact absurd ⟨r', he.symm⟩ hp
      | cons b' d' =>
        simp only [List.cons_append, List.cons.injEq] at he
        have := ih (by cases hh : findEnd (d ++ (endMark ++ r)) with
          | none => rw [hh] at h; cases h
          | some i => rw [hh] at h; simpa using h) d' he.2
        simpa using this

theorem noMark_of {d : Bytes} (h : findEnd d = none) : NoMark d := by
  intro d' r' he
  induction d generalizing d' with
  | nil =>
    have : ([] : Bytes).length = (d' ++ (endMark ++ r')).length := by rw [← he]
    simp [endMark] at this
  | cons b d ih =>
    rw [findEnd] at h
    split at h
    · cases h
    · rename_i hp
      cases d' with
      | nil => exact hp ⟨r', he.symm⟩
      | cons b' d' =>
        simp only [List.cons_append, List.cons.injEq] at he
        exact ih (by cases hh : findEnd d with
          | none => rfl
          | some i => rw [hh] at h; cases h) d' he.2

/-- ` \nBT\r\nendstream` and ` \nBT` at the start of a file meet the hypotheses. -/
example : (∀ b ∈ b!" ", b ≠ 10 ∧ b ≠ 13) ∧ LineBreak [10] (b!"BT\x0d\n" ++ (endMark ++ b!" x")) ∧ FirstMark b!"BT\x0d\n" b!" x" ∧
    Chop b!"BT\x0d\n" b!"BT" ∧ Buffered (b!" \nBT\x0d\nendstream x") PS.init (1 + 1 + 9) ∧ NoMark b!"BTendst" := by
  refine ⟨by decide, .inl rfl, firstMark_of (by decide), chop_b, .inl ⟨Nat.le_refl _, by decide⟩, noMark_of (by decide)⟩

/-- **C11 fails for streams without data** The file ends right after the line break that follows
`stream`: the result is empty data, and nothing is logged. -/
theorem C11_stream_false : ∃ (file : Bytes) (s : PS), file.drop s.pos = [10] ∧
    ∀ (cd : Codecs) (rs : Resolver), readStream file cd rs noDec [] [] s = .ok (some [], ⟨1, 1, true, []⟩) := by
  refine ⟨[10], PS.init, rfl, fun cd rs => ?_⟩
  have h : readStreamRaw [10] PS.init = (some [], ⟨1, 1, true, []⟩) := by decide +kernel
  have h2 := readStream_raw (cd := cd) (rs := rs) (dec := noDec) (v := []) (p := []) (by rw [h]) rfl
  rw [h] at h2
  exact h2

/-- **C19, partial** Two reader states at the same offset, whatever their buffers hold, yield the same
data and the same new messages and stop at the same place, as long as in each of them the bytes up to
the ninth after the line break come out of one buffer. Missing: the other states (`C19_false`). -/
theorem C19_buffer_partial (file : Bytes) (s s' : PS) (hpos : s'.pos = s.pos)
    (hb : ∀ x e d, (∀ b ∈ x, b ≠ 10 ∧ b ≠ 13) → LineBreak e d → file.drop s.pos = x ++ (e ++ d) →
      Buffered file s (x.length + e.length + 9) ∧ Buffered file s' (x.length + e.length + 9))
    (cd : Codecs) (rs : Resolver) {dec : Bytes → Res Bytes} (hdec : ∀ v, ∃ p, dec v = .ok p) :
    ∃ v t t' es, readStream file cd rs dec [] [] s = .ok (v, t) ∧ readStream file cd rs dec [] [] s' = .ok (v, t') ∧
      t'.pos = t.pos ∧ t.log = s.log ++ es ∧ t'.log = s'.log ++ es := by
  have hr : rest file s' = rest file s := rest_congr hpos
  have key : ∀ l k, eolSkip l = some k → ∃ x e d, (∀ b ∈ x, b ≠ 10 ∧ b ≠ 13) ∧ LineBreak e d ∧ l = x ++ (e ++ d) ∧
      k = x.length + e.length := by
    intro l
    induction l with
    | nil => intro k h; cases h
    | cons b l ih =>
      intro k h
      rw [eolSkip.eq_def] at h
      simp only at h
      split at h
      · rename_i hb
        cases h
        exact ⟨[], [10], l, by simp, .inl rfl, by simp [beq_iff_eq.1 hb], rfl⟩
      · rename_i hb0
        split at h
        · rename_i hb
          have hb := beq_iff_eq.1 hb
          subst hb
          cases l with
          | nil => cases h
          | cons c l =>
            simp only at h
            by_cases hc : c = 10
            · subst hc
              simp at h
              subst h
              exact ⟨[], [13, 10], l, by simp, .inr (.inl rfl), rfl, rfl⟩
            · simp [hc] at h
              subst h
              exact ⟨[], [13], c :: l, by simp, .inr (.inr ⟨rfl, c, l, rfl, hc⟩), rfl, rfl⟩
        · rename_i hb1
          cases hh : eolSkip l with
          | none => rw [hh] at h; cases h
          | some i =>
            rw [hh] at h
            simp at h
            subst h
            obtain ⟨x, e, d, h1, h2, h3, h4⟩ := ih i hh
            refine ⟨b :: x, e, d, ?_, h2, by rw [h3]; rfl, by rw [h4]; simp; omega⟩
            intro c hc
            rcases List.mem_cons.1 hc with rfl | hc
            · exact ⟨by simpa using hb0, by simpa using hb1⟩
            · exact h1 c hc
  have hb1 : ∀ k, eolSkip (rest file s) = some k → Buffered file s (k + 9) ∧ Buffered file s' (k + 9) := by
    intro k hk
    obtain ⟨x, e, d, h1, h2, h3, h4⟩ := key _ k hk
    subst h4
    exact hb x e d h1 h2 h3
  obtain ⟨a1, a2⟩ := readStreamRaw_spec (file := file) (s := s) (fun k hk => (hb1 k hk).1)
  obtain ⟨b1, b2⟩ := readStreamRaw_spec (file := file) (s := s') (by rw [hr]; exact fun k hk => (hb1 k hk).2)
  rw [hr] at b1 b2
  have run : ∀ t, (readStreamRaw file t).1 = (lStream (rest file s)).val → ∃ v, (∀ u, (readStreamRaw file u).1 = (lStream (rest file s)).val →
      readStream file cd rs dec [] [] u = .ok (v, (readStreamRaw file u).2)) := by
    intro t ht
    cases hv : (lStream (rest file s)).val with
    | none =>
      refine ⟨some [], fun u hu => ?_⟩
      rw [readStream, St.bind_run, St.ofFun_run]
      show (match (readStreamRaw file u).1 with | none => _ | some raw => _ : M (Option Bytes)) (readStreamRaw file u).2 = _
      rw [hu]
      rfl
    | some raw =>
      obtain ⟨p, hp⟩ := hdec raw
      exact ⟨some p, fun u hu => readStream_raw hu hp⟩
  obtain ⟨v, hv⟩ := run s a1
  exact ⟨v, _, _, _, hv s a1, hv s' b1, by rw [a2.pos, b2.pos, hpos], a2.log, b2.log⟩

/-- A state after a seek and one that has read up to the same place meet the hypotheses: the file fits
in the buffer. -/
example : let file := b!"ab \nBT\nendstream"
    ∀ x e d, (∀ b ∈ x, b ≠ 10 ∧ b ≠ 13) → LineBreak e d → file.drop 2 = x ++ (e ++ d) →
      Buffered file (seek PS.init 2) (x.length + e.length + 9) ∧
        Buffered file (readByte file (readByte file PS.init).2).2 (x.length + e.length + 9) := by
  intro file x e d _ _ h
  refine ⟨.inl ⟨by decide, ?_⟩, .inr (.inr (by decide))⟩
  have := congrArg List.length h
  have e1 : (file.drop 2).length = 14 := by decide
  rw [e1] at this
  simp only [List.length_append] at this
  omega

/-- `n` calls of ReadByte. -/
def readBytes (file : Bytes) : Nat → PS → PS
  | 0, s => s
  | n + 1, s => (readByte file (readBytes file n s)).2

theorem readBytes_init (file : Bytes) (hl : 4096 ≤ file.length) : ∀ n, 0 < n → n ≤ 4096 → readBytes file n PS.init = ⟨n, 4096, true, []⟩ := by
  intro n
  induction n with
  | zero => intro h; omega
  | succ n ih =>
    intro _ hn
    rw [readBytes]
    have hget : ∃ b, file[n]? = some b := ⟨file[n]'(by omega), List.getElem?_eq_getElem (by omega)⟩
    obtain ⟨b, hb⟩ := hget
    rcases Nat.eq_zero_or_pos n with rfl | hp
    · rw [readBytes, readByte]
      show (match file[0]? with | none => _ | some b => _ : Option UInt8 × PS).2 = _
      rw [hb]
      simp [PS.init, bufSize, hl]
    · rw [ih hp (by omega), readByte]
      show (match file[n]? with | none => _ | some b => _ : Option UInt8 × PS).2 = _
      rw [hb]
      have hlt : n < 4096 := by omega
      simp [hlt]

/-- 4090 bytes, a line break, `A`, `endstream`. -/
def straddle : Bytes := List.replicate 4090 120 ++ b!"\nAendstream"

/-- **C19 fails** One parser has read the first 4090 bytes of the file, another one has seeked to offset
4090. The stream there is `A` for the second, but `Aendstream`, with the message `unclosed stream`, for
the first. -/
theorem C19_false (cd : Codecs) (rs : Resolver) :
    ∃ t t', readStream straddle cd rs noDec [] [] (readBytes straddle 4090 PS.init) = .ok (some b!"Aendstream", t) ∧
      t.log = [.unclosedStream] ∧
      readStream straddle cd rs noDec [] [] (seek PS.init 4090) = .ok (some b!"A", t') ∧ t'.log = [] := by
  have hl : straddle.length = 4101 := by rw [straddle, List.length_append, List.length_replicate]; rfl
  rw [readBytes_init straddle (by omega) 4090 (by decide) (by decide)]
  have h1 : readStreamRaw straddle ⟨4090, 4096, true, []⟩ = (some b!"Aendstream", ⟨4101, 4101, true, [.unclosedStream]⟩) := by
    decide +kernel
  have h2 : readStreamRaw straddle (seek PS.init 4090) = (some b!"A", ⟨4101, 4101, true, []⟩) := by
    decide +kernel
  exact ⟨_, _, readStream_raw (by rw [h1]) rfl, by rw [h1], readStream_raw (by rw [h2]) rfl, by rw [h2]⟩

end Pdf.Props
