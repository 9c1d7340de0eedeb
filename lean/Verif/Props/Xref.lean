import Verif.Lemmas.XrefStream
import Verif.Model.Concrete
/-!
Cross reference sections: integers of cross reference streams (C27), tables and streams (C24, C55).
-/

namespace Pdf.Props
open Pdf Pdf.Spec St

/-! ### C27 -/

/-- **C27** `ReadInt64` with a width of at most the bytes that remain returns their big-endian value
modulo 2^64 as a signed integer, and consumes exactly these bytes. -/
theorem C27_value {d : Bytes} {w : Nat} (h1 : w ≤ 2 ^ 48) (h2 : w ≤ d.length) :
    ∃ v, IsInt64Of (bigEndian (d.take w)) v ∧ readBE d w = .ok (some v, d.drop w) := readBE_value h1 h2

/-- **C27** With a width of at most 7 the value is exact. -/
theorem C27_exact {d : Bytes} {w : Nat} (h1 : w ≤ 7) (h2 : w ≤ d.length) :
    readBE d w = .ok (some (bigEndian (d.take w) : Int), d.drop w) := by
  obtain ⟨v, hv, e⟩ := readBE_value (d := d) (w := w) (by omega) h2
  have hlt := bigEndian_lt (d.take w)
  have : 256 ^ (d.take w).length ≤ 256 ^ 7 := Nat.pow_le_pow_right (by decide) (by rw [List.length_take]; omega)
  rw [e, isInt64_unique (by omega) hv]

/-- **C27** With fewer bytes than the width, failure is reported. -/
theorem C27_short {d : Bytes} {w : Nat} (h1 : w ≤ 2 ^ 48) (h2 : d.length < w) : ∃ r, readBE d w = .ok (none, r) := by
  refine ⟨[], ?_⟩
  rw [readBE, if_neg (by omega), if_pos (by simpa using h2)]

/-- **C27** Writing a number in `w` bytes and reading it back. -/
theorem C27_roundtrip {w n : Nat} (h1 : w ≤ 2 ^ 48) (h2 : n < 256 ^ w) (h3 : n < 2 ^ 63) (r : Bytes) :
    readBE (toBigEndian w n ++ r) w = .ok (some (n : Int), r) := readBE_text h1 h2 h3 r

/-- **C27** Widths from 0 to 2^48 never panic. Missing: negative widths (see `C27_panic_false`). -/
theorem C27_no_panic_partial (d : Bytes) {w : Int} (h1 : 0 ≤ w) (h2 : w ≤ 2 ^ 48) : ∃ v r, readBE d w = .ok (v, r) := by
  obtain ⟨k, rfl⟩ := Int.eq_ofNat_of_zero_le h1
  by_cases h : k ≤ d.length
  · obtain ⟨v, -, e⟩ := C27_value (d := d) (w := k) (by omega) h
    exact ⟨_, _, e⟩
  · obtain ⟨r, e⟩ := C27_short (d := d) (w := k) (by omega) (by omega)
    exact ⟨_, _, e⟩

/-- A file with a cross reference stream whose /W array has a negative width. -/
def negativeWidth : Bytes := b!"1 0 obj<</Type/XRef/Size 2/W[-1 1 1]>>stream\n\nendstream endobj"

/-- whether a run panicked -/
def panicked {α : Type} : Res α → Bool
  | .panic _ => true
  | _ => false

set_option maxRecDepth 4000 in
/-- **C27 is violated**: a negative width makes `ReadInt64` panic, and a file can bring this about. -/
theorem C27_panic_false : (∀ d : Bytes, ∃ why, readBE d (-1) = .panic why) ∧
    panicked (load ⟨negativeWidth, Concrete.ext, some false⟩ default 2 2 [] LS.init) = true := by
  refine ⟨fun d => ⟨_, rfl⟩, by decide +kernel⟩

example : readBE [1, 2, 3] 2 = .ok (some 258, [3]) := C27_exact (w := 2) (by decide) (by decide)

/-! ### C24 -/

/-- The entry /Prev of a trailer: the offset it gives, or nothing when it is missing or not a number. It
must not be a reference. -/
inductive PrevIs (d : Dict) : Option Int → Prop
  | absent : d.get? b!"Prev" = none → PrevIs d none
  | other {o} : d.get? b!"Prev" = some o → (∀ n g, o ≠ .ref n g) → o.asNum? = none → PrevIs d none
  | num {x} : d.get? b!"Prev" = some (.num x) → PrevIs d (some x.toInt)

/-- Loading the section an optional offset names. -/
inductive LoadsPrev (cfg : Cfg) (get : Env → Int → M IndObj) (rs : Env → Resolver) (f : Nat) : Option Int → List Int → LS → List Int → LS → Prop
  | none {seen s} : LoadsPrev cfg get rs f none seen s seen s
  | some {p seen s seen' s'} : loadXref cfg get rs f p seen s = .ok (seen', s') → LoadsPrev cfg get rs f (some p) seen s seen' s'

theorem getInt_prev {d : Dict} {p : Option Int} (h : PrevIs d p) (r : Resolver) (s : PS) : Dict.getInt r d b!"Prev" s = .ok (p, s) := by
  cases h with
  | absent h => exact Dict.getInt_none s h
  | other h hr hn => rw [Dict.getInt_direct s h hr, hn]; rfl
  | num h => rw [Dict.getInt_direct s h (by intro n g h; cases h)]; rfl

theorem loadsPrev_ok {cfg : Cfg} {get : Env → Int → M IndObj} {rs : Env → Resolver} {f : Nat} {p : Option Int} {seen seen' : List Int} {s s' : LS}
    {k : LS → LS} {K : List Int → L (List Int)} (hk : ∀ q s, K q s = .ok (q, k s)) :
    (match (motive := Option Int → L (List Int)) p with
      | some p => loadXref cfg get rs f p seen >>= K
      | none => pure seen >>= K) s = .ok (seen', s') ↔ ∃ s2, LoadsPrev cfg get rs f p seen s seen' s2 ∧ s' = k s2 := by
  constructor
  · intro h
    cases p with
    | none =>
      have h : K seen s = .ok (seen', s') := h
      rw [hk] at h; cases h
      exact ⟨s, .none, rfl⟩
    | some p =>
      have h : (loadXref cfg get rs f p seen >>= K) s = .ok (seen', s') := h
      obtain ⟨q, s2, h1, h2⟩ := St.bind_ok h
      rw [hk] at h2; cases h2
      exact ⟨s2, .some h1, rfl⟩
  · rintro ⟨s2, h, rfl⟩
    cases h with
    | none => exact hk _ _
    | some h => exact (bind_of_ok h).trans (hk _ _)

/-- `s'` extends `s` by the section with the given entries and trailer, which take precedence. -/
structure Extends (s s' : LS) (es : List (Int × XrefEntry)) (d : Dict) : Prop where
  xref : ∀ n, s'.xref.get? n = (lastFor es n).or (s.xref.get? n)
  trailer : ∀ k, s'.trailer.get? k = (d.get? k).or (s.trailer.get? k)
  sh : s'.sh = s.sh

theorem table_prefix (file : Bytes) {off : Nat} (ps : PS) {ss : List (Nat × List Line)} {T q : Bytes}
    (hT : TableText ss T) (hin : file.drop off = T ++ (60 :: q)) :
    ∃ ps1 ps2 ps3 w2, readKeyword file (seek ps off) = (b!"xref", ps1) ∧
      tableSections file (file.length + 1) ps1 [] = (setAll [] (listed ss), ps2) ∧
      readKeyword file ps2 = (b!"trailer", ps3) ∧ Grid file off ps3 ∧ Blank w2 ∧ rest file ps3 = w2 ++ (60 :: q) ∧
      ps3.pos + w2.length = off + T.length ∧ ps3.log = ps.log := by
  have hoff : off ≤ file.length := by
    by_cases h : off ≤ file.length
    · exact h
    · rw [List.drop_eq_nil_of_le (by omega)] at hin
      have := congrArg List.length hin
      simp at this
  have hg0 := grid_seek ps hoff
  have hseek : (seek ps off).pos = off ∧ (seek ps off).log = ps.log := by
    rw [seek, if_neg (by omega)]; exact ⟨Int.toNat_natCast _, rfl⟩
  generalize hps0 : seek ps off = ps0 at hg0 hseek
  cases hT with
  | @mk w st w1 w2 _ hw hst hw1 hw2 =>
    have hl0 : rest file ps0 = w ++ (b!"xref" ++ (st ++ (w1 ++ (b!"trailer" ++ (w2 ++ (60 :: q)))))) := by
      rw [rest, hseek.1, hin]; simp only [List.append_assoc]
    obtain ⟨ps1, e1, st1, l1⟩ := readKeyword_word hw (by decide) (by decide) (sectionsText_head hst (gap_head hw1 _)).stops hl0
    have hg1 : Grid file off ps1 := by
      have := readKeyword_inv (grid_inv file off) hg0; rw [e1] at this; exact this
    obtain ⟨ps2, e2, st2, l2⟩ := tableSections_text hst hw1 (b := 116) (by decide) (by decide) rfl (file.length + 1) ps1 []
      (by
        have h1 := sectionsText_len hst
        have h2 := rest_length_le file ps1
        rw [l1] at h2
        simp only [List.length_append] at h2; omega) l1
    have hg2 : Grid file off ps2 := by
      have := tableSections_inv (grid_inv file off) (file.length + 1) ps1 [] hg1; rw [e2] at this; exact this
    have hs60 : Stops (w2 ++ (60 :: q)) := by
      cases hw2 with
      | nil => rintro c u ⟨⟩; decide
      | ws hb _ => rintro c u ⟨⟩; exact fun h => h.1 hb
      | comment _ _ _ => rintro c u ⟨⟩; decide
    have l2' : rest file ps2 = [] ++ (b!"trailer" ++ (w2 ++ (60 :: q))) := l2
    obtain ⟨ps3, e3, st3, l3⟩ := readKeyword_word .nil (by decide) (by decide) hs60 l2'
    have hg3 : Grid file off ps3 := by
      have := readKeyword_inv (grid_inv file off) hg2; rw [e3] at this; exact this
    have hpos : ps3.pos + w2.length = off + (w ++ (b!"xref" ++ (st ++ (w1 ++ (b!"trailer" ++ w2))))).length := by
      rw [st3.pos, st2.pos, st1.pos, hseek.1]; simp only [List.length_append, List.length_nil]; omega
    exact ⟨ps1, ps2, ps3, w2, e1, e2, e3, hg3, hw2, l3, hpos, by rw [st3.log, st2.log, st1.log, hseek.2]; simp⟩

theorem loadXref_table (cfg : Cfg) (get : Env → Int → M IndObj) (rs : Env → Resolver) {off : Nat} {seen : List Int} (s : LS)
    {ss : List (Nat × List Line)} {T t r : Bytes} {es : List (Bytes × Obj)} {e : List Err}
    (hT : TableText ss T) (hd : DictAny es t r e) (hin : cfg.file.drop off = T ++ (60 :: 60 :: (t ++ r))) (hbuf : T.length % 4096 ≠ 4095)
    (hnew : (off : Int) ∉ seen) (f : Nat) {p : Option Int} (hp : PrevIs (dictOf es) p) :
    ∃ s1 : LS, s1.xref = s.xref ∧ s1.trailer = s.trailer ∧ s1.sh = s.sh ∧ s1.ps.log = s.ps.log ++ e ∧
      ∀ seen' s', loadXref cfg get rs (f + 1) off seen s = .ok (seen', s') ↔
        ∃ s2, LoadsPrev cfg get rs f p (off :: seen) s1 seen' s2 ∧
          s' = { s2 with trailer := s2.trailer.merge (dictOf es), xref := s2.xref.merge (setAll [] (listed ss)) } := by
  obtain ⟨ps1, ps2, ps3, w2, e1, e2, e3, hg3, hw2, l3, hpos, hlog⟩ := table_prefix cfg.file s.ps hT hin
  obtain ⟨ps4, e4, st4⟩ := readDictionary_grid hg3 hw2 hd l3 (by rw [hpos]; omega)
  refine ⟨{ s with ps := ps4 }, rfl, rfl, rfl, ?_, ?_⟩
  · show ps4.log = _
    rw [st4.log, hlog]
  · intro seen' s'
    rw [loadXref, if_neg hnew]
    rw [liftM_bind (a := ()) (p := seek s.ps off) rfl]
    rw [liftM_bind (a := b!"xref") (p := ps1) (by show Res.ok _ = _; rw [← e1])]
    rw [if_pos rfl]
    rw [liftM_bind (a := setAll [] (listed ss)) (p := ps2) (by show Res.ok _ = _; rw [← e2])]
    rw [liftM_bind (a := b!"trailer") (p := ps3) (by show Res.ok _ = _; rw [← e3])]
    rw [liftM_bind (a := dictOf es) (p := ps4) (x := fun _ => readDictionary cfg.file noDec) e4]
    rw [liftM_bind (getInt_prev hp _ _)]
    exact loadsPrev_ok (k := fun s2 => { s2 with trailer := s2.trailer.merge (dictOf es), xref := s2.xref.merge (setAll [] (listed ss)) }) (fun q s => rfl)

theorem dictOf_nodup (es : List (Bytes × Obj)) : ((dictOf es).map (·.1)).Nodup :=
  Assoc.nodup_foldl (fun e => e) es (m := []) (by simp)

theorem setAll_nodup (l : List (Int × XrefEntry)) : ((setAll [] l).map (·.1)).Nodup :=
  Assoc.nodup_foldl (fun e => e) l (m := []) (by simp)

/-- **C24** Loading a cross reference table (in any legal spelling; see C55 for `hbuf`): the section /Prev
names is loaded first; then every object number listed has the entry listed (the last one, if
listed twice) and every trailer key listed has the value listed, and the others are as /Prev left
them. -/
theorem C24_table (cfg : Cfg) (get : Env → Int → M IndObj) (rs : Env → Resolver) {off : Nat} {seen : List Int} (s : LS)
    {ss : List (Nat × List Line)} {T t r : Bytes} {es : List (Bytes × Obj)} {e : List Err}
    (hT : TableText ss T) (hd : DictAny es t r e) (hin : cfg.file.drop off = T ++ (60 :: 60 :: (t ++ r))) (hbuf : T.length % 4096 ≠ 4095)
    (hnew : (off : Int) ∉ seen) (f : Nat) {p : Option Int} (hp : PrevIs (dictOf es) p) :
    ∃ s1 : LS, s1.xref = s.xref ∧ s1.trailer = s.trailer ∧ s1.sh = s.sh ∧
      (∀ seen' s2, LoadsPrev cfg get rs f p (off :: seen) s1 seen' s2 → ∃ s', loadXref cfg get rs (f + 1) off seen s = .ok (seen', s')) ∧
      ∀ seen' s', loadXref cfg get rs (f + 1) off seen s = .ok (seen', s') →
        ∃ s2, LoadsPrev cfg get rs f p (off :: seen) s1 seen' s2 ∧ Extends s2 s' (listed ss) (dictOf es) := by
  obtain ⟨s1, h1, h2, h3, -, h4⟩ := loadXref_table cfg get rs s hT hd hin hbuf hnew f hp
  refine ⟨s1, h1, h2, h3, fun seen' s2 hrun => ⟨_, (h4 seen' _).2 ⟨s2, hrun, rfl⟩⟩, fun seen' s' h => ?_⟩
  obtain ⟨s2, hrun, rfl⟩ := (h4 _ _).1 h
  refine ⟨s2, hrun, ?_, ?_, rfl⟩
  · intro n
    rw [Assoc.get?_merge_uniq _ (setAll_nodup _), get?_setAll]; simp
  · intro k
    rw [Assoc.get?_merge_uniq _ (dictOf_nodup _)]

/-- **C24** Loading a cross reference stream with direct /Index (or /Size) and /W: the section /Prev names
is loaded first; then every object number listed, except the stream's own, has the entry listed,
every trailer key the value listed, and the others are as /Prev left them. -/
theorem C24_stream (cfg : Cfg) (get : Env → Int → M IndObj) (rs : Env → Resolver) {off : Nat} {seen : List Int} (s : LS)
    {ds gs : List Nat} {h r : Bytes} (hh : HeaderText ds gs h) (hs : Stops r) (hin : cfg.file.drop off = h ++ r)
    (hds : Spec.decVal ds < 2 ^ 63) (hgs : Spec.decVal gs < 2 ^ 63)
    {d : Dict} {data : Bytes} {m g' : Int}
    (hget : ∀ ps, ∃ ps', get ⟨cfg.file, s.xref.set (Spec.decVal ds) ⟨off, Spec.decVal gs, 1, false, false⟩, s.sh, cfg.ext, cfg.verbose⟩ (Spec.decVal ds) ps =
      .ok (⟨m, g', .dict d, some data⟩, ps')) (hdn : (d.map (·.1)).Nodup)
    {ss : List (Nat × List Field)} {w0 w1 w2 : Nat} {more : List Obj} {extra : Bytes}
    (hidx : d.get? b!"Index" = some (.arr (indexOf ss)) ∨
      d.get? b!"Index" = none ∧ ∃ fs, ss = [(0, fs)] ∧ d.get? b!"Size" = some (.num (.fin (fs.length : Nat))))
    (hW : d.get? b!"W" = some (.arr (.num (.fin (w0 : Nat)) :: .num (.fin (w1 : Nat)) :: .num (.fin (w2 : Nat)) :: more)))
    (hw0 : w0 ≤ 2 ^ 48) (hw1 : w1 ≤ 2 ^ 48) (hw2 : w2 ≤ 2 ^ 48)
    (hfit : ∀ p ∈ ss, p.1 + p.2.length < 2 ^ 53 ∧ ∀ f ∈ p.2, Fits w0 w1 w2 f) (hdata : data = dataOf w0 w1 w2 ss ++ extra)
    (hnew : (off : Int) ∉ seen) (f : Nat) {p : Option Int} (hp : PrevIs d p) :
    ∃ s1 : LS, s1.xref = s.xref.set (Spec.decVal ds) ⟨off, Spec.decVal gs, 1, false, false⟩ ∧ s1.trailer = s.trailer ∧ s1.sh = s.sh ∧
      (∀ seen' s2, LoadsPrev cfg get rs f p (off :: seen) s1 seen' s2 → ∃ s', loadXref cfg get rs (f + 1) off seen s = .ok (seen', s')) ∧
      ∀ seen' s', loadXref cfg get rs (f + 1) off seen s = .ok (seen', s') →
        ∃ s2, LoadsPrev cfg get rs f p (off :: seen) s1 seen' s2 ∧
          (∀ n, s'.xref.get? n = if n = m then some ⟨off + h.length, g', 1, false, false⟩ else (lastFor (listedFields ss) n).or (s2.xref.get? n)) ∧
          (∀ k, s'.trailer.get? k = (d.get? k).or (s2.trailer.get? k)) ∧ s'.sh = s2.sh := by
  have hseek : ∀ ps : PS, (seek ps off).pos = off := by
    intro ps; rw [seek, if_neg (by omega)]; exact Int.toNat_natCast _
  have hl : ∀ ps : PS, rest cfg.file (seek ps off) = h ++ r := by intro ps; rw [rest, hseek, hin]
  have hkw := header_keyword hh (hl s.ps)
  generalize hps1 : readKeyword cfg.file (seek s.ps off) = kp at hkw
  obtain ⟨kw, ps1⟩ := kp
  obtain ⟨n, g, hn, hg, e2, st2⟩ := readObjectHeader_text hh hs cfg.file (seek ps1 off) (by rw [hseek, hin])
  rw [isInt64_unique hds hn, isInt64_unique hgs hg] at e2
  generalize hps2 : readObjectHeader cfg.file (seek ps1 off) = hp2 at e2 st2
  obtain ⟨hd1, ps2⟩ := hp2
  dsimp only at e2 st2 hkw
  subst e2
  obtain ⟨ps3, e3⟩ := hget ps2
  have hco : currentOffset ps2 = ((off + h.length : Nat) : Int) := by
    rw [currentOffset, st2.pos, hseek]; omega
  have nr : ∀ (x : F64) (n g : Int), Obj.num x ≠ .ref n g := by intro x n g h; cases h
  have nra : ∀ (x : List Obj) (n g : Int), Obj.arr x ≠ .ref n g := by intro x n g h; cases h
  have key : ∀ s3 : LS, streamBody cfg rs ⟨m, g', .dict d, some data⟩ d ((off + h.length : Nat) : Int) s3 =
      .ok ((), { s3 with xref := (setAll s3.xref (listedFields ss)).set m ⟨((off + h.length : Nat) : Int), g', 1, false, false⟩ }) := by
    intro s3
    have hb48 : (2 : Nat) ^ 48 < 2 ^ 53 := by decide
    have hsec := fun s4 => streamSections_text cfg rs hw0 hw1 hw2 ss [] hfit extra s4
    have hidx' : streamIndex cfg rs d s3 = .ok (some (indexOf ss), s3) := by
      rw [streamIndex]
      rcases hidx with h1 | ⟨h1, fs, h2, h3⟩
      · rw [liftM_bind (Dict.getArray_direct _ h1 (nra _))]; rfl
      · rw [liftM_bind (Dict.getArray_none _ h1)]
        dsimp only
        rw [liftM_bind (Dict.getNumber_direct _ h3 (nr _)), h2]; rfl
    rw [streamBody, bind_of_ok hidx']
    dsimp only
    rw [liftM_bind (Dict.getArray_direct _ hW (nra _))]
    simp only [Obj.asArr?]
    rw [liftM_bind (Arr.getInt_direct _ (i := 0) rfl (nr _))]
    simp only [Obj.asNum?, Option.map_some]
    rw [liftM_bind (Arr.getInt_direct _ (i := 1) rfl (nr _))]
    simp only [Obj.asNum?, Option.map_some]
    rw [liftM_bind (Arr.getInt_direct _ (i := 2) rfl (nr _))]
    simp only [Obj.asNum?, Option.map_some]
    rw [nat_toInt (by omega), nat_toInt (by omega), nat_toInt (by omega), indexOf_length, Nat.mul_div_cancel_left _ (by decide)]
    simp only [Option.getD_some]
    have := hsec s3
    rw [List.nil_append, ← hdata] at this
    exact bind_of_ok this
  have heq : ∀ seen' s', loadXref cfg get rs (f + 1) off seen s = .ok (seen', s') ↔
      ∃ s2, LoadsPrev cfg get rs f p (off :: seen) ⟨ps3, s.xref.set (Spec.decVal ds) ⟨off, Spec.decVal gs, 1, false, false⟩, s.trailer, s.sh⟩ seen' s2 ∧
        s' = { s2 with trailer := s2.trailer.merge d, xref := (setAll s2.xref (listedFields ss)).set m ⟨((off + h.length : Nat) : Int), g', 1, false, false⟩ } := by
    intro seen' s'
    rw [loadXref, if_neg hnew]
    rw [liftM_bind (a := ()) (p := seek s.ps off) rfl]
    rw [liftM_bind (a := kw) (p := ps1) (by show Res.ok _ = _; rw [← hps1])]
    rw [if_neg hkw]
    rw [liftM_bind (a := ()) (p := seek ps1 off) rfl]
    rw [liftM_bind (a := ((Spec.decVal ds : Int), (Spec.decVal gs : Int), true)) (p := ps2) (by show Res.ok _ = _; rw [← hps2])]
    dsimp only
    rw [if_pos rfl, bind_of_ok (show setXref (Spec.decVal ds : Int) _ _ = .ok ((), _) from rfl)]
    rw [liftM_bind (a := ((off + h.length : Nat) : Int)) (p := ps2) (by show Res.ok _ = _; rw [← hco]), liftM_bind e3]
    dsimp only
    rw [liftM_bind (getInt_prev hp _ _)]
    refine loadsPrev_ok (k := fun s2 => { s2 with trailer := s2.trailer.merge d, xref := (setAll s2.xref (listedFields ss)).set m ⟨((off + h.length : Nat) : Int), g', 1, false, false⟩ }) (fun q s => ?_)
    rw [bind_of_ok (show mergeTrailer d s = .ok ((), _) from rfl), bind_of_ok (key _)]
    rfl
  refine ⟨⟨ps3, s.xref.set (Spec.decVal ds) ⟨off, Spec.decVal gs, 1, false, false⟩, s.trailer, s.sh⟩, rfl, rfl, rfl,
    fun seen' s2 hrun => ⟨_, (heq seen' _).2 ⟨s2, hrun, rfl⟩⟩, fun seen' s' hr => ?_⟩
  obtain ⟨s2, hrun, rfl⟩ := (heq _ _).1 hr
  refine ⟨s2, hrun, ?_, ?_, rfl⟩
  · intro n
    dsimp only
    rw [Assoc.get?_set, get?_setAll]
    by_cases hn : n = m
    · rw [if_pos hn.symm, if_pos hn]; simp
    · rw [if_neg (Ne.symm hn), if_neg hn]
  · intro k
    exact Assoc.get?_merge_uniq _ hdn k

/-! ### C55 -/

theorem loadXref_missed (cfg : Cfg) (get : Env → Int → M IndObj) (rs : Env → Resolver) {off : Nat} {seen : List Int} (s : LS)
    {ss : List (Nat × List Line)} {T t : Bytes}
    (hT : TableText ss T) (hin : cfg.file.drop off = T ++ (60 :: 60 :: t)) (hbuf : T.length % 4096 = 4095)
    (hnew : (off : Int) ∉ seen) (f : Nat) :
    ∃ ps, loadXref cfg get rs (f + 1) off seen s =
      .ok (off :: seen, { s with ps := ps, xref := s.xref.merge (setAll [] (listed ss)) }) := by
  obtain ⟨ps1, ps2, ps3, w2, e1, e2, e3, hg3, hw2, l3, hpos, hlog⟩ := table_prefix cfg.file s.ps hT hin
  obtain ⟨ps4, e4⟩ := readDictionary_missed hg3 hw2 l3 (by rw [hpos]; omega)
  refine ⟨ps4, ?_⟩
  rw [loadXref, if_neg hnew]
  rw [liftM_bind (a := ()) (p := seek s.ps off) rfl]
  rw [liftM_bind (a := b!"xref") (p := ps1) (by show Res.ok _ = _; rw [← e1])]
  rw [if_pos rfl]
  rw [liftM_bind (a := setAll [] (listed ss)) (p := ps2) (by show Res.ok _ = _; rw [← e2])]
  rw [liftM_bind (a := b!"trailer") (p := ps3) (by show Res.ok _ = _; rw [← e3])]
  rw [liftM_bind (a := []) (p := ps4) (x := fun _ => readDictionary cfg.file noDec) e4]
  rw [liftM_bind (getInt_prev (.absent rfl) _ _)]
  rfl

/-- **C55** When the text from the start of the table to the trailer dictionary does not have length 4095
modulo 4096, every key of the trailer dictionary is read. Missing: the other lengths (see `C55_false`). -/
theorem C55_partial (cfg : Cfg) (get : Env → Int → M IndObj) (rs : Env → Resolver) {off : Nat} {seen : List Int} (s : LS)
    {ss : List (Nat × List Line)} {T t r : Bytes} {es : List (Bytes × Obj)} {e : List Err}
    (hT : TableText ss T) (hd : DictAny es t r e) (hin : cfg.file.drop off = T ++ (60 :: 60 :: (t ++ r)))
    (hnew : (off : Int) ∉ seen) (f : Nat) (hp : PrevIs (dictOf es) none) (hbuf : T.length % 4096 ≠ 4095) :
    ∃ seen' s', loadXref cfg get rs (f + 1) off seen s = .ok (seen', s') ∧ ∀ k, s'.trailer.get? k = ((dictOf es).get? k).or (s.trailer.get? k) := by
  obtain ⟨s1, h1, h2, h3, h4, h5⟩ := C24_table cfg get rs s hT hd hin hbuf hnew f hp
  obtain ⟨s', h6⟩ := h4 _ _ .none
  obtain ⟨s2, h7, h8⟩ := h5 _ _ h6
  cases h7
  exact ⟨_, s', h6, fun k => by rw [h8.trailer, h2]⟩

/-- **C55 is violated** for every table where that length is 4095 modulo 4096: no key is read (and /Prev is
not followed). The buffered reader then hands out only the first byte of `<<`. -/
theorem C55_false (cfg : Cfg) (get : Env → Int → M IndObj) (rs : Env → Resolver) {off : Nat} {seen : List Int} (s : LS)
    {ss : List (Nat × List Line)} {T t : Bytes}
    (hT : TableText ss T) (hin : cfg.file.drop off = T ++ (60 :: 60 :: t))
    (hnew : (off : Int) ∉ seen) (f : Nat) (hbuf : T.length % 4096 = 4095) :
    ∃ seen' s', loadXref cfg get rs (f + 1) off seen s = .ok (seen', s') ∧ s'.trailer = s.trailer := by
  obtain ⟨ps, h⟩ := loadXref_missed cfg get rs s hT hin hbuf hnew f
  exact ⟨_, _, h, rfl⟩

theorem blank_spaces (n : Nat) : Blank (List.replicate n 32) := by
  induction n with
  | zero => exact .nil
  | succ n ih => exact .ws (by decide) ih

/-- tables of every length from 12 on exist: pad with spaces before the trailer dictionary -/
theorem table_of_length (n : Nat) : ∃ T, TableText [] T ∧ T.length = n + 12 := by
  refine ⟨_, .mk (w := []) (w1 := [32]) (w2 := List.replicate n 32) .nil .nil ⟨.ws (by decide) .nil, by decide⟩ (blank_spaces n), ?_⟩
  simp only [List.length_append, List.length_replicate, List.length_nil]
  show 0 + (4 + (0 + (1 + (7 + n)))) = _
  omega

/-- the hypotheses of `C55_false` are met -/
example : ∃ (file T t : Bytes), TableText [] T ∧ file.drop 0 = T ++ (60 :: 60 :: t) ∧ T.length % 4096 = 4095 := by
  obtain ⟨T, h1, h2⟩ := table_of_length 4083
  exact ⟨T ++ (60 :: 60 :: b!"/Root 1 0 R>>"), T, _, h1, rfl, by omega⟩

end Pdf.Props
