import Verif.Model.Parser
/-!
Invariants of the reader: what the reader operations keep, all token and object readers keep.
-/

namespace Pdf

/-- `I` is kept by reading and unreading bytes. -/
structure Inv0 (file : Bytes) (I : PS → Prop) : Prop where
  rb : ∀ {s}, I s → I (readByte file s).2
  ub : ∀ {s}, I s → I (unreadByte s)

/-- `I` is kept by the operations of `bufio.Reader` that the parser uses, by logging, and by going back
to an offset at which it held. -/
structure Inv (file : Bytes) (I : PS → Prop) : Prop extends Inv0 file I where
  pk : ∀ {s}, I s → I (peek2 file s).2
  dc : ∀ {s} n, I s → I (discard s n)
  rn : ∀ {s n}, 0 < n → I s → I (readN file s n).2
  le : ∀ {s} e, I s → I (logErr s e)
  sk : ∀ {s s0}, I s0 → I s → I (seek s (currentOffset s0))

section
variable {file : Bytes} {I : PS → Prop} (hI : Inv0 file I)
include hI

theorem Inv0.rb' {s s' : PS} {o : Option UInt8} (h : I s) (e : readByte file s = (o, s')) : I s' := by
  have := hI.rb h; rw [e] at this; exact this

theorem consumeComment_inv : ∀ f s, I s → I (consumeComment file f s) := by
  intro f
  induction f with
  | zero => intro s h; exact h
  | succ f ih =>
    intro s h
    rw [consumeComment]
    split
    · exact hI.rb' h ‹_›
    · have h1 := hI.rb' h ‹_›
      split
      · exact h1
      split
      · split
        · exact hI.rb' h1 ‹_›
        · have h2 := hI.rb' h1 ‹_›
          split
          · exact hI.ub h2
          · exact h2
      · exact ih _ h1

theorem consumeWsLoop_inv : ∀ f s, I s → I (consumeWsLoop file f s) := by
  intro f
  induction f with
  | zero => intro s h; exact h
  | succ f ih =>
    intro s h
    rw [consumeWsLoop]
    split
    · exact hI.rb' h ‹_›
    · have h1 := hI.rb' h ‹_›
      split
      · exact ih _ (consumeComment_inv hI _ _ h1)
      split
      · exact ih _ h1
      · exact hI.ub h1

theorem consumeWs_inv {s} (h : I s) : I (consumeWs file s) := consumeWsLoop_inv hI _ _ h

theorem readIntLoop_inv : ∀ f s v, I s → I (readIntLoop file f s v).2 := by
  intro f
  induction f with
  | zero => intro s v h; exact h
  | succ f ih =>
    intro s v h
    rw [readIntLoop]
    split
    · exact hI.rb' h ‹_›
    · have h1 := hI.rb' h ‹_›
      split
      · exact ih _ _ h1
      · exact hI.ub h1

theorem readInt_inv {s} (h : I s) : I (readInt file s).2 := by
  rw [readInt]
  dsimp only
  have h0 := consumeWs_inv hI h
  split
  · exact hI.ub (hI.rb' h0 ‹_›)
  · have h1 := hI.rb' h0 ‹_›
    split
    · exact readIntLoop_inv hI _ _ _ h1
    · exact hI.ub h1

theorem readKeywordLoop_inv : ∀ f s v, I s → I (readKeywordLoop file f s v).2 := by
  intro f
  induction f with
  | zero => intro s v h; exact h
  | succ f ih =>
    intro s v h
    rw [readKeywordLoop]
    split
    · exact hI.rb' h ‹_›
    · have h1 := hI.rb' h ‹_›
      split
      · exact hI.ub h1
      · exact ih _ _ h1

theorem readKeyword_inv {s} (h : I s) : I (readKeyword file s).2 := readKeywordLoop_inv hI _ _ _ (consumeWs_inv hI h)

theorem readObjectHeader_inv {s} (h : I s) : I (readObjectHeader file s).2 := by
  rw [readObjectHeader]
  have h1 := readInt_inv hI h
  split
  · rename_i e; rw [e] at h1; exact h1
  · rename_i e; rw [e] at h1
    have h2 := readInt_inv hI h1
    split
    · rename_i e2; rw [e2] at h2; exact h2
    · rename_i e2; rw [e2] at h2
      exact readKeyword_inv hI h2
end

section
variable {file : Bytes} {I : PS → Prop} (hI : Inv file I)
include hI

theorem readNameCode_inv : ∀ f s v, I s → I (readNameCode file f s v).2 := by
  intro f
  induction f with
  | zero => intro s v h; exact h
  | succ f ih =>
    intro s v h
    rw [readNameCode]
    split
    · exact hI.toInv0.rb' h ‹_›
    · have h1 := hI.toInv0.rb' h ‹_›
      split
      · exact ih _ _ h1
      · exact hI.ub (hI.le _ h1)

theorem readNameLoop_inv : ∀ f s v, I s → I (readNameLoop file f s v).2 := by
  intro f
  induction f with
  | zero => intro s v h; exact h
  | succ f ih =>
    intro s v h
    rw [readNameLoop]
    split
    · exact hI.toInv0.rb' h ‹_›
    · have h1 := hI.toInv0.rb' h ‹_›
      split
      · exact hI.ub h1
      split
      · have h2 := readNameCode_inv hI 2 _ [] h1
        dsimp only
        split
        · exact ih _ _ (hI.le _ h2)
        · exact ih _ _ h2
      · exact ih _ _ h1

theorem readName_inv {s} (h : I s) : I (readName file s).2 := by
  rw [readName]
  have h0 := consumeWs_inv hI.toInv0 h
  split
  · exact hI.toInv0.rb' h0 ‹_›
  · have h1 := hI.toInv0.rb' h0 ‹_›
    split
    · exact h1
    · exact readNameLoop_inv hI _ _ _ h1

theorem readFracLoop_inv : ∀ f s v i, I s → I (readFracLoop file f s v i).2 := by
  intro f
  induction f with
  | zero => intro s v i h; exact h
  | succ f ih =>
    intro s v i h
    rw [readFracLoop]
    split
    · exact hI.toInv0.rb' h ‹_›
    · have h1 := hI.toInv0.rb' h ‹_›
      split
      · exact ih _ _ _ h1
      · exact hI.ub h1

theorem readWholeLoop_inv : ∀ f s v, I s → I (readWholeLoop file f s v).2 := by
  intro f
  induction f with
  | zero => intro s v h; exact h
  | succ f ih =>
    intro s v h
    rw [readWholeLoop]
    split
    · exact hI.toInv0.rb' h ‹_›
    · have h1 := hI.toInv0.rb' h ‹_›
      split
      · exact ih _ _ h1
      split
      · exact h1
      · exact hI.ub h1

theorem readNumber_inv {s} (h : I s) : I (readNumber file s).2 := by
  rw [readNumber]
  have h0 := consumeWs_inv hI.toInv0 h
  dsimp only
  split
  · exact hI.toInv0.rb' h0 ‹_›
  · have h1 := hI.toInv0.rb' h0 ‹_›
    split
    · dsimp only
      have key : ∀ p : (F64 × Bool) × PS, I p.2 → I (if p.1.2 = true then readFracLoop file (file.length + 1) p.2 p.1.1 1 else (p.1.1, p.2)).2 := by
        intro p hp
        split
        · exact readFracLoop_inv hI _ _ _ _ hp
        · exact hp
      refine key _ ?_
      split
      · exact h1
      · exact readWholeLoop_inv hI _ _ _ h1
    · exact hI.ub h1

theorem readHexLoop_inv : ∀ f s p v, I s → I (readHexLoop file f s p v).2 := by
  intro f
  induction f with
  | zero => intro s p v h; exact h
  | succ f ih =>
    intro s p v h
    rw [readHexLoop]
    have h0 := consumeWs_inv hI.toInv0 h
    dsimp only
    split
    · exact hI.le _ (hI.toInv0.rb' h0 ‹_›)
    · have h1 := hI.toInv0.rb' h0 ‹_›
      split
      · exact h1
      split
      · exact ih _ _ _ (hI.le _ h1)
      · split <;> exact ih _ _ _ h1

theorem readHexRaw_inv {s} (h : I s) : I (readHexRaw file s).2 := by
  rw [readHexRaw]
  have h0 := consumeWs_inv hI.toInv0 h
  split
  · exact hI.toInv0.rb' h0 ‹_›
  · have h1 := hI.toInv0.rb' h0 ‹_›
    split
    · exact h1
    · exact readHexLoop_inv hI _ _ _ _ h1

theorem readOctalMore_inv : ∀ f s v, I s → I (readOctalMore file f s v).2 := by
  intro f
  induction f with
  | zero => intro s v h; exact h
  | succ f ih =>
    intro s v h
    rw [readOctalMore]
    split
    · exact hI.le _ (hI.toInv0.rb' h ‹_›)
    · have h1 := hI.toInv0.rb' h ‹_›
      split
      · exact ih _ _ h1
      · exact hI.ub h1

theorem readOctal_inv {s} (b : UInt8) (h : I s) : I (readOctal file s b).2 := by
  rw [readOctal]
  have h1 := readOctalMore_inv hI 2 s [b] h
  dsimp only
  have key : ∀ p : UInt8 × PS, I p.2 → I (if stringEscapeUnneeded p.1 = true then logErr p.2 .unnecessaryEscapeString else p.2) := by
    intro p hp
    split
    · exact hI.le _ hp
    · exact hp
  refine key _ ?_
  split
  · exact h1
  · exact hI.ub (hI.le _ h1)

theorem readStringLoop_inv : ∀ f s o v, I s → I (readStringLoop file f s o v).2 := by
  intro f
  induction f with
  | zero => intro s o v h; exact h
  | succ f ih =>
    intro s o v h
    rw [readStringLoop]
    split
    · exact hI.le _ (hI.toInv0.rb' h ‹_›)
    · have h1 := hI.toInv0.rb' h ‹_›
      split
      · split
        · exact hI.le _ (hI.toInv0.rb' h1 ‹_›)
        · have h2 := hI.toInv0.rb' h1 ‹_›
          split
          · exact ih _ _ _ h2
          split
          · split
            · exact hI.le _ (hI.toInv0.rb' h2 ‹_›)
            · have h3 := hI.toInv0.rb' h2 ‹_›
              refine ih _ _ _ ?_
              split
              · exact hI.ub h3
              · exact h3
          · dsimp only
            split
            · exact ih _ _ _ (readOctal_inv hI _ h2)
            · exact ih _ _ _ h2
      · dsimp only
        repeat' split
        all_goals first
          | exact h1
          | exact ih _ _ _ h1

theorem readStringRaw_inv {s} (h : I s) : I (readStringRaw file s).2 := by
  rw [readStringRaw]
  have h0 := consumeWs_inv hI.toInv0 h
  split
  · exact hI.toInv0.rb' h0 ‹_›
  · have h1 := hI.toInv0.rb' h0 ‹_›
    split
    · exact h1
    · exact readStringLoop_inv hI _ _ _ _ h1

theorem readNumOrRef_inv {s} (h : I s) : I (readNumOrRef file s).2 := by
  rw [readNumOrRef]
  have h0 := readNumber_inv hI h
  have h1 := readInt_inv hI.toInv0 h0
  generalize readNumber file s = p at h0 h1
  obtain ⟨x, t⟩ := p
  dsimp only at h0 h1 ⊢
  split
  · rename_i e
    rw [e] at h1
    exact hI.sk h0 h1
  · rename_i e
    rw [e] at h1
    split
    · exact hI.sk h0 (readKeyword_inv hI.toInv0 h1)
    · exact readKeyword_inv hI.toInv0 h1

theorem readObject_inv (dec : Bytes → Res Bytes) : ∀ f,
    (∀ s r t, I s → readObject file dec f s = .ok (r, t) → I t) ∧
    (∀ s a r t, I s → arrLoop file dec f s a = .ok (r, t) → I t) ∧
    (∀ s d r t, I s → dictLoop file dec f s d = .ok (r, t) → I t) := by
  intro f
  induction f with
  | zero =>
    refine ⟨?_, ?_, ?_⟩
    · intro s r t _ h; rw [readObject] at h; cases h
    · intro s a r t _ h; rw [arrLoop] at h; cases h
    · intro s a r t _ h; rw [dictLoop] at h; cases h
  | succ f ih =>
    obtain ⟨ih1, ih2, ih3⟩ := ih
    refine ⟨?_, ?_, ?_⟩
    · intro s r t hs h
      rw [readObject] at h
      have h0 := hI.pk (consumeWs_inv hI.toInv0 hs)
      dsimp only at h
      generalize hp : peek2 file (consumeWs file s) = p at h h0
      obtain ⟨b, s1⟩ := p
      dsimp only at h h0
      split at h
      · cases h; exact h0
      · split at h
        · cases h; exact readName_inv hI h0
        split at h
        · have hh : I (readArrayHead file s1).2 := by
            rw [readArrayHead]
            have h2 := consumeWs_inv hI.toInv0 h0
            split <;> exact hI.toInv0.rb' h2 ‹_›
          split at h
          · rename_i e; rw [e] at hh; cases h; exact hh
          · rename_i e; rw [e] at hh
            cases ha : arrLoop file dec f _ [] with
            | ok q => rw [ha] at h; cases h; exact ih2 _ _ _ _ hh ha
            | panic w => rw [ha] at h; cases h
            | oof => rw [ha] at h; cases h
        split at h
        · cases h; exact hI.dc _ h0
        split at h
        · rw [readString] at h
          have h2 := readStringRaw_inv hI h0
          dsimp only at h
          cases ha : dec (readStringRaw file s1).1 with
          | ok q => rw [ha] at h; cases h; exact h2
          | panic w => rw [ha] at h; cases h
          | oof => rw [ha] at h; cases h
        split at h
        · cases h; exact hI.dc _ h0
        split at h
        · have hh : I (readDictHead file s1).2 := by
            rw [readDictHead]
            exact hI.rn (by decide) (consumeWs_inv hI.toInv0 h0)
          split at h
          · rename_i e; rw [e] at hh; cases h; exact hh
          · rename_i e; rw [e] at hh
            cases ha : dictLoop file dec f _ [] with
            | ok q => rw [ha] at h; cases h; exact ih3 _ _ _ _ hh ha
            | panic w => rw [ha] at h; cases h
            | oof => rw [ha] at h; cases h
        split at h
        · cases h; exact hI.dc _ h0
        split at h
        · rw [readHexString] at h
          have h2 := readHexRaw_inv hI h0
          dsimp only at h
          cases ha : dec (readHexRaw file s1).1 with
          | ok q => rw [ha] at h; cases h; exact h2
          | panic w => rw [ha] at h; cases h
          | oof => rw [ha] at h; cases h
        split at h
        · cases h; exact hI.dc _ h0
        split at h
        · cases h; exact readNumOrRef_inv hI h0
        · cases h; exact readKeyword_inv hI.toInv0 h0
    · intro s a r t hs h
      rw [arrLoop] at h
      cases ha : readObject file dec f s with
      | ok q =>
        obtain ⟨⟨e, err⟩, s1⟩ := q
        rw [ha] at h
        have h1 := ih1 _ _ _ hs ha
        simp only [Res.bind_ok] at h
        split at h
        · cases h; exact hI.le _ h1
        split at h
        · cases h; exact h1
        · exact ih2 _ _ _ _ h1 h
      | panic w => rw [ha] at h; cases h
      | oof => rw [ha] at h; cases h
    · intro s a r t hs h
      rw [dictLoop] at h
      cases ha : readObject file dec f s with
      | ok q =>
        obtain ⟨⟨e, err⟩, s1⟩ := q
        rw [ha] at h
        have h1 := ih1 _ _ _ hs ha
        simp only [Res.bind_ok] at h
        split at h
        · cases h; exact hI.le _ h1
        split at h
        · cases h; exact h1
        split at h
        · cases hb : readObject file dec f s1 with
          | ok q =>
            obtain ⟨⟨e2, err2⟩, s2⟩ := q
            rw [hb] at h
            have h2 := ih1 _ _ _ h1 hb
            simp only [Res.bind_ok] at h
            split at h
            · cases h; exact hI.le _ h2
            · exact ih3 _ _ _ _ h2 h
          | panic w => rw [hb] at h; cases h
          | oof => rw [hb] at h; cases h
        · exact ih3 _ _ _ _ (hI.le _ h1) h
      | panic w => rw [ha] at h; cases h
      | oof => rw [ha] at h; cases h

theorem readObj_inv {dec : Bytes → Res Bytes} {s r t} (h : I s) (e : readObj file dec s = .ok (r, t)) : I t :=
  (readObject_inv hI dec _).1 _ _ _ h e
end

/-- Since the reader was at `off`: the buffer is empty, or reaches at least 4096 bytes past `off`, or
holds the rest of the file. -/
structure Since (file : Bytes) (off : Nat) (s : PS) : Prop where
  pos : off ≤ s.pos
  last : s.last = true → off < s.pos
  buf : (s.last = false ∧ s.lim ≤ s.pos) ∨ (off + 4096 ≤ s.lim ∧ s.lim ≤ file.length) ∨ s.lim = file.length

theorem since_inv (file : Bytes) (off : Nat) : Inv file (Since file off) := by
  have fill : ∀ p, off ≤ p → p < file.length →
      (off + 4096 ≤ min (p + bufSize) file.length ∧ min (p + bufSize) file.length ≤ file.length) ∨ min (p + bufSize) file.length = file.length := by
    intro p h1 h2; simp only [bufSize]; omega
  refine ⟨⟨?_, ?_⟩, ?_, ?_, ?_, ?_, ?_⟩
  · rintro s ⟨h1, h2, h3⟩
    rw [readByte]
    split
    · exact ⟨h1, h2, h3⟩
    · rename_i hb
      have hlt : s.pos < file.length := by
        obtain ⟨hl, -⟩ := List.getElem?_eq_some_iff.1 hb; exact hl
      refine ⟨by dsimp only; omega, fun _ => (by dsimp only; omega), ?_⟩
      dsimp only
      right
      split
      · rcases h3 with h3 | h3
        · omega
        · exact h3
      · exact fill _ h1 hlt
  · rintro s ⟨h1, h2, h3⟩
    rw [unreadByte]
    split
    · rename_i hl
      have := h2 hl
      refine ⟨by dsimp only; omega, fun h => (by cases h), ?_⟩
      rcases h3 with h3 | h3
      · rw [hl] at h3; cases h3.1
      · exact .inr h3
    · exact ⟨h1, h2, h3⟩
  · rintro s ⟨h1, h2, h3⟩
    rw [peek2]
    refine ⟨h1, fun h => (by cases h), ?_⟩
    dsimp only
    split
    · rename_i hc
      by_cases hp : s.pos < file.length
      · exact .inr (fill _ h1 hp)
      · left; exact ⟨rfl, by omega⟩
    · rcases h3 with h3 | h3
      · exact .inl ⟨rfl, h3.2⟩
      · exact .inr h3
  · rintro s n ⟨h1, h2, h3⟩
    rw [discard]
    refine ⟨by dsimp only; omega, fun h => (by cases h), ?_⟩
    rcases h3 with h3 | h3
    · exact .inl ⟨rfl, by dsimp only; omega⟩
    · exact .inr h3
  · rintro s n hn ⟨h1, h2, h3⟩
    rw [readN]
    split
    · rename_i hlt
      refine ⟨by dsimp only; omega, fun _ => (by dsimp only; omega), ?_⟩
      rcases h3 with h3 | h3
      · omega
      · exact .inr h3
    split
    · rename_i hlt
      have hk : 0 < min n (min (s.pos + bufSize) file.length - s.pos) := by simp only [bufSize]; omega
      exact ⟨by dsimp only; omega, fun _ => (by dsimp only; omega), .inr (fill _ h1 hlt)⟩
    · exact ⟨h1, h2, h3⟩
  · rintro s e ⟨h1, h2, h3⟩
    exact ⟨h1, h2, h3⟩
  · rintro s s0 ⟨h1, h2, h3⟩ ⟨g1, g2, g3⟩
    rw [seek]
    have hc : currentOffset s0 = s0.pos := by rw [currentOffset]; omega
    rw [hc, if_neg (by omega)]
    refine ⟨by dsimp only; omega, fun h => (by cases h), .inl ⟨rfl, by dsimp only; omega⟩⟩

end Pdf
