import Verif.Model.GetObject
/-!
Reading does not depend on what has been logged before: every reader function commutes with putting
something in front of the log.
-/

namespace Pdf

/-- More logged before. -/
def addLog (p : List Err) (s : PS) : PS := { s with log := p ++ s.log }

/-- The same on results. -/
def mapLog {α : Type} (p : List Err) : Res (α × PS) → Res (α × PS)
  | .ok (a, s) => .ok (a, addLog p s)
  | .panic w => .panic w
  | .oof => .oof

section
variable (p : List Err) (file : Bytes)

@[simp] theorem addLog_pos (s) : (addLog p s).pos = s.pos := rfl
@[simp] theorem addLog_lim (s) : (addLog p s).lim = s.lim := rfl

theorem unreadByte_al (s) : unreadByte (addLog p s) = addLog p (unreadByte s) := by
  rw [unreadByte, unreadByte]; show (if s.last = true then _ else _) = _; split <;> rfl

theorem logErr_al (s e) : logErr (addLog p s) e = addLog p (logErr s e) := by
  simp [logErr, addLog]

theorem readByte_al (s) : readByte file (addLog p s) = ((readByte file s).1, addLog p (readByte file s).2) := by
  rw [readByte, readByte, addLog_pos]
  cases file[s.pos]? <;> rfl

theorem consumeComment_al : ∀ f s, consumeComment file f (addLog p s) = addLog p (consumeComment file f s) := by
  intro f
  induction f with
  | zero => intro s; rfl
  | succ f ih =>
    intro s
    rw [consumeComment, consumeComment, readByte_al]
    rcases readByte file s with ⟨_ | b, s1⟩
    · rfl
    · dsimp only
      rw [readByte_al, ih]
      rcases readByte file s1 with ⟨_ | c, s2⟩
      · dsimp only; (repeat' split) <;> rfl
      · dsimp only; rw [unreadByte_al]; (repeat' split) <;> rfl

theorem consumeWsLoop_al : ∀ f s, consumeWsLoop file f (addLog p s) = addLog p (consumeWsLoop file f s) := by
  intro f
  induction f with
  | zero => intro s; rfl
  | succ f ih =>
    intro s
    rw [consumeWsLoop, consumeWsLoop, readByte_al]
    rcases readByte file s with ⟨_ | b, s1⟩
    · rfl
    · dsimp only
      rw [consumeComment_al, ih, ih, unreadByte_al]
      (repeat' split) <;> rfl

theorem consumeWs_al (s) : consumeWs file (addLog p s) = addLog p (consumeWs file s) := consumeWsLoop_al _ _ _ _

theorem readIntLoop_al : ∀ f s v, readIntLoop file f (addLog p s) v = ((readIntLoop file f s v).1, addLog p (readIntLoop file f s v).2) := by
  intro f
  induction f with
  | zero => intro s v; rfl
  | succ f ih =>
    intro s v
    rw [readIntLoop, readIntLoop, readByte_al]
    rcases readByte file s with ⟨_ | b, s1⟩
    · rfl
    · dsimp only
      rw [ih, unreadByte_al]
      split <;> rfl

theorem readInt_al (s) : readInt file (addLog p s) = ((readInt file s).1, addLog p (readInt file s).2) := by
  rw [readInt, readInt]
  dsimp only
  rw [consumeWs_al, readByte_al]
  rcases readByte file (consumeWs file s) with ⟨_ | b, s1⟩
  · dsimp only; rw [unreadByte_al]
  · dsimp only
    rw [readIntLoop_al, unreadByte_al]
    split <;> rfl

theorem readKeywordLoop_al : ∀ f s v, readKeywordLoop file f (addLog p s) v = ((readKeywordLoop file f s v).1, addLog p (readKeywordLoop file f s v).2) := by
  intro f
  induction f with
  | zero => intro s v; rfl
  | succ f ih =>
    intro s v
    rw [readKeywordLoop, readKeywordLoop, readByte_al]
    rcases readByte file s with ⟨_ | b, s1⟩
    · rfl
    · dsimp only
      rw [ih, unreadByte_al]
      split <;> rfl

theorem readKeyword_al (s) : readKeyword file (addLog p s) = ((readKeyword file s).1, addLog p (readKeyword file s).2) := by
  rw [readKeyword, readKeyword, consumeWs_al, readKeywordLoop_al]

theorem readNameCode_al : ∀ f s v, readNameCode file f (addLog p s) v = ((readNameCode file f s v).1, addLog p (readNameCode file f s v).2) := by
  intro f
  induction f with
  | zero => intro s v; rfl
  | succ f ih =>
    intro s v
    rw [readNameCode, readNameCode, readByte_al]
    rcases readByte file s with ⟨_ | b, s1⟩
    · rfl
    · dsimp only
      rw [ih, logErr_al, unreadByte_al]
      split <;> rfl

theorem readNameLoop_al : ∀ f s v, readNameLoop file f (addLog p s) v = ((readNameLoop file f s v).1, addLog p (readNameLoop file f s v).2) := by
  intro f
  induction f with
  | zero => intro s v; rfl
  | succ f ih =>
    intro s v
    rw [readNameLoop, readNameLoop, readByte_al]
    rcases readByte file s with ⟨_ | b, s1⟩
    · rfl
    · dsimp only
      rw [readNameCode_al, unreadByte_al, ih]
      dsimp only
      rw [logErr_al]
      (repeat' split) <;> first
        | rfl
        | rw [ih]

theorem readName_al (s) : readName file (addLog p s) = ((readName file s).1, addLog p (readName file s).2) := by
  rw [readName, readName]
  rw [consumeWs_al, readByte_al]
  rcases readByte file (consumeWs file s) with ⟨_ | b, s1⟩
  · rfl
  · dsimp only
    rw [readNameLoop_al]
    split <;> rfl

theorem readFracLoop_al : ∀ f s v i, readFracLoop file f (addLog p s) v i = ((readFracLoop file f s v i).1, addLog p (readFracLoop file f s v i).2) := by
  intro f
  induction f with
  | zero => intro s v i; rfl
  | succ f ih =>
    intro s v i
    rw [readFracLoop, readFracLoop, readByte_al]
    rcases readByte file s with ⟨_ | b, s1⟩
    · rfl
    · dsimp only
      rw [ih, unreadByte_al]
      split <;> rfl

theorem readWholeLoop_al : ∀ f s v, readWholeLoop file f (addLog p s) v = ((readWholeLoop file f s v).1, addLog p (readWholeLoop file f s v).2) := by
  intro f
  induction f with
  | zero => intro s v; rfl
  | succ f ih =>
    intro s v
    rw [readWholeLoop, readWholeLoop, readByte_al]
    rcases readByte file s with ⟨_ | b, s1⟩
    · rfl
    · dsimp only
      rw [ih, unreadByte_al]
      (repeat' split) <;> rfl

theorem readNumber_al (s) : readNumber file (addLog p s) = ((readNumber file s).1, addLog p (readNumber file s).2) := by
  rw [readNumber, readNumber]
  dsimp only
  rw [consumeWs_al, readByte_al]
  rcases readByte file (consumeWs file s) with ⟨_ | b, s1⟩
  · rfl
  · dsimp only
    rw [readWholeLoop_al, unreadByte_al]
    split
    · by_cases hb : (b == 46) = true
      · simp only [if_pos hb]
        rw [readFracLoop_al]
        rfl
      · simp only [if_neg hb]
        rw [readFracLoop_al]
        (repeat' split) <;> rfl
    · rfl

theorem readHexLoop_al : ∀ f s q v, readHexLoop file f (addLog p s) q v = ((readHexLoop file f s q v).1, addLog p (readHexLoop file f s q v).2) := by
  intro f
  induction f with
  | zero => intro s q v; rfl
  | succ f ih =>
    intro s q v
    rw [readHexLoop, readHexLoop]
    dsimp only
    rw [consumeWs_al, readByte_al]
    rcases readByte file (consumeWs file s) with ⟨_ | b, s1⟩
    · dsimp only; rw [logErr_al]
    · dsimp only
      rw [logErr_al, ih]
      cases q <;> (dsimp only; rw [ih]; (repeat' split) <;> rfl)

theorem readHexRaw_al (s) : readHexRaw file (addLog p s) = ((readHexRaw file s).1, addLog p (readHexRaw file s).2) := by
  rw [readHexRaw, readHexRaw]
  rw [consumeWs_al, readByte_al]
  rcases readByte file (consumeWs file s) with ⟨_ | b, s1⟩
  · rfl
  · dsimp only
    rw [readHexLoop_al]
    split <;> rfl

theorem readOctalMore_al : ∀ f s v, readOctalMore file f (addLog p s) v = ((readOctalMore file f s v).1, addLog p (readOctalMore file f s v).2) := by
  intro f
  induction f with
  | zero => intro s v; rfl
  | succ f ih =>
    intro s v
    rw [readOctalMore, readOctalMore, readByte_al]
    rcases readByte file s with ⟨_ | b, s1⟩
    · dsimp only; rw [logErr_al]
    · dsimp only
      rw [ih, unreadByte_al]
      split <;> rfl

theorem readOctal_al (s b) : readOctal file (addLog p s) b = ((readOctal file s b).1, addLog p (readOctal file s b).2) := by
  rw [readOctal, readOctal]
  dsimp only
  rw [readOctalMore_al]
  dsimp only
  rw [logErr_al, unreadByte_al]
  split <;> (dsimp only; rw [logErr_al]; split <;> rfl)

theorem readStringLoop_al : ∀ f s o v, readStringLoop file f (addLog p s) o v = ((readStringLoop file f s o v).1, addLog p (readStringLoop file f s o v).2) := by
  intro f
  induction f with
  | zero => intro s o v; rfl
  | succ f ih =>
    intro s o v
    rw [readStringLoop, readStringLoop, readByte_al]
    rcases readByte file s with ⟨_ | b, s1⟩
    · dsimp only; rw [logErr_al]
    · dsimp only
      rw [readByte_al]
      rcases readByte file s1 with ⟨_ | c, s2⟩
      · dsimp only
        rw [logErr_al]
        simp only [ih]
        (repeat' split) <;> rfl
      · dsimp only
        rw [readByte_al]
        rcases readByte file s2 with ⟨_ | e, s3⟩
        · dsimp only
          rw [logErr_al]
          simp only [ih, readOctal_al]
          (repeat' split) <;> rfl
        · dsimp only
          rw [unreadByte_al]
          simp only [ih, readOctal_al]
          (repeat' split) <;> first
            | rfl
            | rw [ih]

theorem readStringRaw_al (s) : readStringRaw file (addLog p s) = ((readStringRaw file s).1, addLog p (readStringRaw file s).2) := by
  rw [readStringRaw, readStringRaw]
  rw [consumeWs_al, readByte_al]
  rcases readByte file (consumeWs file s) with ⟨_ | b, s1⟩
  · rfl
  · dsimp only
    rw [readStringLoop_al]
    split <;> rfl

theorem skipToStreamData_al : ∀ f s, skipToStreamData file f (addLog p s) = ((skipToStreamData file f s).1, addLog p (skipToStreamData file f s).2) := by
  intro f
  induction f with
  | zero => intro s; rfl
  | succ f ih =>
    intro s
    rw [skipToStreamData, skipToStreamData, readByte_al]
    rcases readByte file s with ⟨_ | b, s1⟩
    · rfl
    · dsimp only
      rw [readByte_al, ih]
      rcases readByte file s1 with ⟨_ | c, s2⟩
      · dsimp only; (repeat' split) <;> rfl
      · dsimp only; rw [unreadByte_al]; (repeat' split) <;> rfl

theorem readN_al (s n) : readN file (addLog p s) n = ((readN file s n).1, addLog p (readN file s n).2) := by
  rw [readN, readN, addLog_pos, addLog_lim]
  (repeat' split) <;> rfl

theorem streamLoop_al : ∀ f s w v, streamLoop file f (addLog p s) w v = ((streamLoop file f s w v).1, addLog p (streamLoop file f s w v).2) := by
  intro f
  induction f with
  | zero => intro s w v; rfl
  | succ f ih =>
    intro s w v
    rw [streamLoop.eq_def, streamLoop.eq_def file (f + 1) s]
    dsimp only
    split
    · rfl
    · cases w with
      | nil => rfl
      | cons b w =>
        dsimp only
        rw [readByte_al]
        rcases readByte file s with ⟨_ | c, s1⟩
        · dsimp only; rw [logErr_al]
        · dsimp only; rw [ih]

theorem readStreamRaw_al (s) : readStreamRaw file (addLog p s) = ((readStreamRaw file s).1, addLog p (readStreamRaw file s).2) := by
  rw [readStreamRaw, readStreamRaw, skipToStreamData_al]
  rcases skipToStreamData file (file.length + 1) s with ⟨_ | _, s1⟩
  · rfl
  · dsimp only
    rw [readN_al, streamLoop_al]

theorem seek_al (s o) : seek (addLog p s) o = addLog p (seek s o) := by
  rw [seek, seek]; split <;> rfl

theorem discard_al (s n) : discard (addLog p s) n = addLog p (discard s n) := rfl

theorem peek2_al (s) : peek2 file (addLog p s) = ((peek2 file s).1, addLog p (peek2 file s).2) := rfl

theorem readNumOrRef_al (s) : readNumOrRef file (addLog p s) = ((readNumOrRef file s).1, addLog p (readNumOrRef file s).2) := by
  rw [readNumOrRef, readNumOrRef, readNumber_al]
  dsimp only
  rw [readInt_al]
  have hc : ∀ s, currentOffset (addLog p s) = currentOffset s := fun _ => rfl
  rw [hc]
  rcases readInt file (readNumber file s).2 with ⟨⟨g, _ | _⟩, s1⟩
  · dsimp only; rw [seek_al]
  · dsimp only
    rw [readKeyword_al]
    dsimp only
    rw [seek_al]
    split <;> rfl

theorem readArrayHead_al (s) : readArrayHead file (addLog p s) = ((readArrayHead file s).1, addLog p (readArrayHead file s).2) := by
  rw [readArrayHead, readArrayHead, consumeWs_al, readByte_al]
  rcases readByte file (consumeWs file s) with ⟨_ | b, s1⟩ <;> rfl

theorem readDictHead_al (s) : readDictHead file (addLog p s) = ((readDictHead file s).1, addLog p (readDictHead file s).2) := by
  rw [readDictHead, readDictHead, consumeWs_al, readN_al]

theorem readObjectHeader_al (s) : readObjectHeader file (addLog p s) = ((readObjectHeader file s).1, addLog p (readObjectHeader file s).2) := by
  rw [readObjectHeader, readObjectHeader, readInt_al]
  rcases readInt file s with ⟨⟨n, _ | _⟩, s1⟩
  · rfl
  · dsimp only
    rw [readInt_al]
    rcases readInt file s1 with ⟨⟨g, _ | _⟩, s2⟩
    · rfl
    · dsimp only
      rw [readKeyword_al]

theorem mapLog_bind {α β : Type} (x : Res (α × PS)) (f : α × PS → Res (β × PS)) (hf : ∀ a s, f (a, addLog p s) = mapLog p (f (a, s))) :
    (mapLog p x >>= f) = mapLog p (x >>= f) := by
  cases x with
  | ok r => exact hf r.1 r.2
  | panic w => rfl
  | oof => rfl

variable (dec : Bytes → Res Bytes)

theorem readString_al (s) : readString file dec (addLog p s) = mapLog p (readString file dec s) := by
  rw [readString, readString, readStringRaw_al]
  dsimp only
  cases dec (readStringRaw file s).1 <;> rfl

theorem readHexString_al (s) : readHexString file dec (addLog p s) = mapLog p (readHexString file dec s) := by
  rw [readHexString, readHexString, readHexRaw_al]
  dsimp only
  cases dec (readHexRaw file s).1 <;> rfl

theorem readObject_al : ∀ f, (∀ s, readObject file dec f (addLog p s) = mapLog p (readObject file dec f s)) ∧
    (∀ s l, arrLoop file dec f (addLog p s) l = mapLog p (arrLoop file dec f s l)) ∧
    (∀ s d, dictLoop file dec f (addLog p s) d = mapLog p (dictLoop file dec f s d)) := by
  intro f
  induction f with
  | zero =>
    refine ⟨fun s => ?_, fun s l => ?_, fun s d => ?_⟩
    · rw [readObject, readObject]; rfl
    · rw [arrLoop, arrLoop]; rfl
    · rw [dictLoop, dictLoop]; rfl
  | succ f ih =>
    obtain ⟨ih1, ih2, ih3⟩ := ih
    refine ⟨fun s => ?_, fun s l => ?_, fun s d => ?_⟩
    · rw [readObject, readObject]
      dsimp only
      rw [consumeWs_al, peek2_al]
      dsimp only
      generalize (peek2 file (consumeWs file s)).2 = t
      cases (peek2 file (consumeWs file s)).1 with
      | nil => rfl
      | cons b0 tl =>
        dsimp only
        rw [readName_al, readArrayHead_al, discard_al, readString_al, discard_al, readDictHead_al, readHexString_al, readNumOrRef_al, readKeyword_al]
        by_cases c1 : (b0 == ch%'/') = true
        · rw [if_pos c1, if_pos c1]; rfl
        rw [if_neg c1, if_neg c1]
        by_cases c2 : (b0 == ch%'[') = true
        · rw [if_pos c2, if_pos c2]
          rcases readArrayHead file t with ⟨_ | _, s1⟩
          · rfl
          · dsimp only; rw [ih2]; exact mapLog_bind p _ _ fun _ _ => rfl
        rw [if_neg c2, if_neg c2]
        by_cases c3 : (b0 == ch%']') = true
        · rw [if_pos c3, if_pos c3]; rfl
        rw [if_neg c3, if_neg c3]
        by_cases c4 : (b0 == ch%'(') = true
        · rw [if_pos c4, if_pos c4]; exact mapLog_bind p _ _ fun _ _ => rfl
        rw [if_neg c4, if_neg c4]
        by_cases c5 : (b0 == ch%')') = true
        · rw [if_pos c5, if_pos c5]; rfl
        rw [if_neg c5, if_neg c5]
        by_cases c6 : (b0 :: tl == b!"<<") = true
        · rw [if_pos c6, if_pos c6]
          rcases readDictHead file t with ⟨_ | _, s1⟩
          · rfl
          · dsimp only; rw [ih3]; exact mapLog_bind p _ _ fun _ _ => rfl
        rw [if_neg c6, if_neg c6]
        by_cases c7 : (b0 :: tl == b!">>") = true
        · rw [if_pos c7, if_pos c7]; rfl
        rw [if_neg c7, if_neg c7]
        by_cases c8 : (b0 == ch%'<') = true
        · rw [if_pos c8, if_pos c8]; exact mapLog_bind p _ _ fun _ _ => rfl
        rw [if_neg c8, if_neg c8]
        by_cases c9 : (b0 == ch%'>') = true
        · rw [if_pos c9, if_pos c9]; rfl
        rw [if_neg c9, if_neg c9]
        split <;> rfl
    · rw [arrLoop, arrLoop, ih1]
      refine mapLog_bind p _ _ fun a s => ?_
      dsimp only
      rw [logErr_al, ih2]
      (repeat' split) <;> rfl
    · rw [dictLoop, dictLoop, ih1]
      refine mapLog_bind p _ _ fun a s => ?_
      dsimp only
      rw [logErr_al]
      split
      · rfl
      split
      · rfl
      split
      · rw [ih1]
        refine mapLog_bind p _ _ fun a s => ?_
        dsimp only
        rw [logErr_al, ih3]
        split <;> rfl
      · rw [logErr_al, ih3]

theorem readObj_al (s) : readObj file dec (addLog p s) = mapLog p (readObj file dec s) := (readObject_al p file dec _).1 s

end

/-! ### Computations of the parser -/

/-- The computation does not look at the log. -/
def LogFree {α : Type} (x : M α) : Prop := ∀ p s, x (addLog p s) = mapLog p (x s)

theorem LogFree.pure {α : Type} (a : α) : LogFree (pure a : M α) := fun _ _ => rfl

theorem LogFree.bind {α β : Type} {x : M α} {f : α → M β} (hx : LogFree x) (hf : ∀ a, LogFree (f a)) : LogFree (x >>= f) := by
  intro p s
  show (x (addLog p s) >>= fun q => f q.1 q.2) = mapLog p (x s >>= fun q => f q.1 q.2)
  rw [hx]
  exact mapLog_bind p _ _ fun a s => hf a p s

theorem LogFree.ofRes {α : Type} (x : Res α) : LogFree (St.ofRes x : M α) := by
  intro p s
  cases x <;> rfl

theorem LogFree.ofFun {α : Type} {f : PS → α × PS} (h : ∀ p s, f (addLog p s) = ((f s).1, addLog p (f s).2)) : LogFree (St.ofFun f) := by
  intro p s
  show Res.ok (f (addLog p s)) = _
  rw [h]; rfl

theorem LogFree.keepOffset {α : Type} {x : M α} (hx : LogFree x) : LogFree (keepOffset x) := by
  intro p s
  show (x (addLog p s) >>= fun q => .ok (q.1, seek q.2 (currentOffset s))) = mapLog p (x s >>= fun q => .ok (q.1, seek q.2 (currentOffset s)))
  rw [hx]
  exact mapLog_bind p _ _ fun a s => by rw [seek_al]; rfl

section
variable {rs : Resolver} (hrs : ∀ n, LogFree (rs n))
include hrs

theorem deref_lf (o : Obj) : LogFree (deref rs o) := by
  cases o with
  | ref n g => exact (hrs n).bind fun _ => .pure _
  | _ => exact .pure _

theorem Dict.getObject_lf (d : Dict) (k : Bytes) : LogFree (Dict.getObject rs d k) := by
  rw [Dict.getObject]
  split
  · exact (deref_lf hrs _).bind fun _ => .pure _
  · exact .pure _

theorem Arr.getObject_lf (a : List Obj) (i : Int) : LogFree (Arr.getObject rs a i) := by
  rw [Arr.getObject]
  split
  · exact .pure _
  · split
    · exact (deref_lf hrs _).bind fun _ => .pure _
    · exact .pure _

theorem Dict.getInt_lf (d : Dict) (k : Bytes) : LogFree (Dict.getInt rs d k) :=
  ((Dict.getObject_lf hrs d k).bind fun _ => .pure _).bind fun _ => .pure _

theorem reversePredictorM_lf (data : Bytes) (d : Dict) : LogFree (reversePredictorM rs data d) :=
  (Dict.getInt_lf hrs d _).bind fun _ => (Dict.getInt_lf hrs d _).bind fun _ => (Dict.getInt_lf hrs d _).bind fun _ => (Dict.getInt_lf hrs d _).bind fun _ => .ofRes _

theorem decodeStream_lf (cd : Codecs) (f : Bytes) (data : Option Bytes) (d : Dict) : LogFree (decodeStream cd rs f data d) := by
  rw [decodeStream.eq_def]
  split
  · exact .pure _
  · exact .pure _
  · split
    · exact .pure _
    split
    · exact .pure _
    split
    · exact .pure _
    split
    · refine LogFree.bind ?_ fun _ => .pure _
      rw [flateDecode]
      split
      · exact .pure _
      split
      · exact .pure _
      · exact reversePredictorM_lf hrs _ _
    split
    · refine LogFree.bind ?_ fun _ => .pure _
      rw [lzwDecode]
      refine (Dict.getInt_lf hrs d _).bind fun _ => ?_
      dsimp only
      split
      · exact .pure _
      · exact reversePredictorM_lf hrs _ _
    · exact .pure _

theorem decodeLoop_lf (cd : Codecs) (fs ps : List Obj) : ∀ n i data, LogFree (decodeLoop cd rs fs ps n i data) := by
  intro n
  induction n with
  | zero => intro i data; exact .pure _
  | succ n ih =>
    intro i data
    exact ((Arr.getObject_lf hrs _ _).bind fun _ => .pure _).bind fun _ => ((Arr.getObject_lf hrs _ _).bind fun _ => .pure _).bind fun _ =>
      (decodeStream_lf hrs _ _ _ _).bind fun _ => ih _ _

theorem readStream_lf (file : Bytes) (cd : Codecs) (dec : Bytes → Res Bytes) (fs ps : List Obj) : LogFree (readStream file cd rs dec fs ps) := by
  refine (LogFree.ofFun fun p s => readStreamRaw_al p file s).bind fun r => ?_
  split
  · exact .pure _
  · exact (LogFree.ofRes _).bind fun _ => decodeLoop_lf hrs _ _ _ _ _ _

theorem filterList_lf (d : Dict) : LogFree (filterList rs d) := by
  refine ((Dict.getObject_lf hrs _ _).bind fun _ => .pure _).bind fun r => ?_
  split
  · exact .pure _
  · refine ((Dict.getObject_lf hrs _ _).bind fun _ => .pure _).bind fun r => ?_
    split <;> exact .pure _

theorem parmsList_lf (d : Dict) : LogFree (parmsList rs d) := by
  refine ((Dict.getObject_lf hrs _ _).bind fun _ => .pure _).bind fun r => ?_
  split
  · exact .pure _
  · refine ((Dict.getObject_lf hrs _ _).bind fun _ => .pure _).bind fun r => ?_
    split <;> exact .pure _

theorem streamCrypt_lf (sh : SecHandler) (b : Bool) (d : Dict) (fs ps : List Obj) : LogFree (streamCrypt rs sh b d fs ps) := by
  rw [streamCrypt]
  split
  · exact .pure _
  · refine ((Dict.getObject_lf hrs _ _).bind fun _ => .pure _).bind fun r => ?_
    dsimp only
    split
    · exact .pure _
    · refine ((Arr.getObject_lf hrs _ _).bind fun _ => .pure _).bind fun r => ?_
      split
      · exact ((Arr.getObject_lf hrs _ _).bind fun _ => .pure _).bind fun _ => ((Dict.getObject_lf hrs _ _).bind fun _ => .pure _).bind fun _ => .pure _
      · exact .pure _

theorem getStreamF_lf (env : Env) (n : Int) (e : XrefEntry) (v : Obj) : LogFree (getStreamF env rs n e v) := by
  refine (LogFree.ofFun fun p s => readKeyword_al p _ s).bind fun kw => ?_
  split
  · exact (filterList_lf hrs _).bind fun _ => (parmsList_lf hrs _).bind fun _ => (streamCrypt_lf hrs _ _ _ _ _).bind fun _ => readStream_lf hrs _ _ _ _ _
  · exact .pure _

theorem getObjectF_lf (env : Env) (n : Int) : LogFree (getObjectF env rs n) := by
  rw [getObjectF]
  split
  · exact .pure _
  · split
    · refine LogFree.bind (fun p s => by rw [seekM, seekM, seek_al]; rfl) fun _ => ?_
      refine (LogFree.ofFun fun p s => readObjectHeader_al p _ s).bind fun _ => ?_
      exact LogFree.bind (fun p s => readObj_al p _ _ s) fun _ => (getStreamF_lf hrs _ _ _ _).bind fun _ => .pure _
    · exact .pure _

end

theorem resolve_lf (env : Env) : ∀ f seen n, LogFree (resolve env f seen n) := by
  intro f
  induction f with
  | zero => intro seen n p s; simp only [resolve]; rfl
  | succ f ih =>
    intro seen n
    rw [resolve]
    split
    · exact .pure _
    · refine (getObjectF_lf (fun m => (ih [] m).keepOffset) env n).bind fun o => ?_
      split
      · exact ih _ _
      · exact .pure _

theorem resolver_lf (env : Env) (f : Nat) (n : Int) : LogFree (resolver env f n) := (resolve_lf env f [] n).keepOffset

theorem getObject_lf (env : Env) (f : Nat) (n : Int) : LogFree (getObject env f n) := getObjectF_lf (resolver_lf env f) env n

end Pdf
