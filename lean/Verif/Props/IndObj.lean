import Verif.Lemmas.IndObj
import Verif.Props.Parser
import Verif.Props.Stream
/-!
C58, C59: `GetObject` on the text of an indirect object, from the cross-reference entry to the value
and the decoded stream.
-/

namespace Pdf.Props
open Pdf Spec St

/-- An in-use entry of the cross-reference map that points to the text `t`. -/
structure InUse (env : Env) (n : Int) (e : XrefEntry) (t : Bytes) : Prop where
  entry : env.xref.get? n = some e
  typ : e.typ = 1
  off : 0 ≤ e.offset
  text : env.file.drop e.offset.toNat = t

/-- How the strings of object `n` are decrypted. -/
abbrev stringDec (env : Env) (n : Int) (e : XrefEntry) : Bytes → Res Bytes :=
  decrypt env.ext env.verbose (newDecryptor env.ext (if e.isEncrypted then env.sh.stringFilter else .none) n e.generation)

/-- Everything up to the value. -/
theorem getObjectF_value {env : Env} {n : Int} {e : XrefEntry} {ds gs : List Nat} {h w t r : Bytes} {o : Obj} {es : List Err}
    (hx : InUse env n e (h ++ (w ++ (t ++ r)))) (hh : HeaderText ds gs h) (hw : Blank w) (hs : Stops (w ++ (t ++ r))) (ho : ObjAt o t r es)
    {g : Bytes → Bytes} (hg : ∀ b, stringDec env n e b = .ok (g b)) (rs : Resolver) (s : PS) :
    ∃ s1, getObjectF env rs n s = (getStreamF env rs n e (mapStr g o) >>= fun st => pure ⟨n, e.generation, mapStr g o, st⟩ : M IndObj) s1 ∧
      s1.pos = e.offset.toNat + h.length + w.length + t.length ∧ s1.log = s.log ++ es ∧ Since env.file e.offset.toNat s1 := by
  have hseek : seek s e.offset = { s with pos := e.offset.toNat, lim := e.offset.toNat, last := false } := by
    rw [seek, if_neg (by have := hx.off; omega)]
  have h0 : Since env.file e.offset.toNat (seek s e.offset) := by
    rw [hseek]; exact ⟨Nat.le_refl _, (fun h => by cases h), .inl ⟨rfl, Nat.le_refl _⟩⟩
  have hin : env.file.drop (seek s e.offset).pos = h ++ (w ++ (t ++ r)) := by rw [hseek]; exact hx.text
  obtain ⟨n', g', -, -, e1, st1⟩ := readObjectHeader_text hh hs env.file (seek s e.offset) hin
  have h1 := readObjectHeader_inv (since_inv env.file e.offset.toNat).toInv0 h0
  have hin1 : env.file.drop (readObjectHeader env.file (seek s e.offset)).2.pos = w ++ (t ++ r) := by
    have := rest_eq (file := env.file) st1.pos
    rw [rest, rest, hin, List.drop_left] at this; exact this
  obtain ⟨s1, e2, p2, l2⟩ := readObj_mapStr hg ho hw env.file _ hin1
  have h2 := readObj_inv (since_inv env.file e.offset.toNat) h1 e2
  refine ⟨s1, ?_, ?_, ?_, h2⟩
  · exact getObjectF_run hx.entry hx.typ e2
  · rw [p2, st1.pos, hseek]
  · rw [l2, st1.log, hseek]; simp

/-- **C58** `GetObject` on an in-use entry whose offset is that of a header, a value in any spelling and
no `stream` keyword: the result has the number asked for, the generation of the entry, the value
(with its strings decrypted) and no stream; the messages are those of the value. -/
theorem C58_object {env : Env} {n : Int} {e : XrefEntry} {ds gs : List Nat} {h w t r : Bytes} {o : Obj} {es : List Err}
    (hx : InUse env n e (h ++ (w ++ (t ++ r)))) (hh : HeaderText ds gs h) (hw : Blank w) (hs : Stops (w ++ (t ++ r))) (ho : ObjAt o t r es)
    (hr : ¬ StreamNext r) {g : Bytes → Bytes} (hg : ∀ b, stringDec env n e b = .ok (g b)) (f : Nat) (s : PS) :
    ∃ s', getObject env f n s = .ok (⟨n, e.generation, mapStr g o, none⟩, s') ∧ s'.log = s.log ++ es := by
  obtain ⟨s1, h1, p1, l1, b1⟩ := getObjectF_value hx hh hw hs ho hg (resolver env f) s
  have hrest : rest env.file s1 = r := by
    rw [rest, p1]
    have := hx.text
    rw [← List.append_assoc, ← List.append_assoc] at this
    rw [show e.offset.toNat + h.length + w.length + t.length = e.offset.toNat + ((h ++ w) ++ t).length by simp; omega, ← List.drop_drop, this, List.drop_left]
  obtain ⟨k1, k2⟩ := readKeyword_spec env.file s1
  rw [streamNext_iff, ← hrest, ← k1] at hr
  refine ⟨(readKeyword env.file s1).2, ?_, ?_⟩
  · rw [getObject, h1]
    refine bind_of_ok (t := (readKeyword env.file s1).2) (a := none) ?_
    rw [getStreamF, ofFun_bind, if_neg hr]; rfl
  · rw [k2.log, l1]; simp [lKeyword]

/-- The crypt filter of a stream without a `Crypt` filter of its own. -/
def streamFilterOf (env : Env) (e : XrefEntry) (d : Dict) : CryptFilter :=
  if e.isEncrypted then (if d.get? b!"Type" = some (.name b!"EmbeddedFile") then env.sh.fileFilter else env.sh.streamFilter) else .none

theorem streamCrypt_names {env : Env} {rs : Resolver} {e : XrefEntry} {D : Dict} {g : Bytes → Bytes} {fs : List Bytes} {os : List Obj} {s : PS}
    (hty : ∀ a b, D.get? b!"Type" ≠ some (.ref a b)) (hcr : fs.head? ≠ some b!"Crypt") :
    streamCrypt rs env.sh e.isEncrypted (mapStrD g D) (fs.map .name) os s = .ok ((streamFilterOf env e D, fs.map .name, os), s) := by
  rw [streamCrypt, streamFilterOf]
  cases hen : e.isEncrypted with
  | false => rfl
  | true =>
    rw [if_neg (by decide), if_pos rfl]
    have hT : ∃ nm, Dict.getName rs (mapStrD g D) b!"Type" s = .ok (nm, s) ∧ (nm = some b!"EmbeddedFile" ↔ D.get? b!"Type" = some (.name b!"EmbeddedFile")) := by
      have hm := get?_mapStrD g D b!"Type"
      cases hD : D.get? b!"Type" with
      | none =>
        rw [hD] at hm
        exact ⟨none, Dict.getName_none s hm, by simp⟩
      | some o =>
        rw [hD] at hm hty
        cases o with
        | ref a b => exact absurd rfl (hty a b)
        | _ => exact ⟨_, Dict.getName_direct s hm (by intro n g h; simp [mapStr] at h), by simp [mapStr, Obj.asName?]⟩
    obtain ⟨nm, hnm, hiff⟩ := hT
    rw [bind_of_ok hnm]
    rw [show (if D.get? b!"Type" = some (.name b!"EmbeddedFile") then env.sh.fileFilter else env.sh.streamFilter) =
      (if nm = some b!"EmbeddedFile" then env.sh.fileFilter else env.sh.streamFilter) by simp only [hiff]]
    cases fs with
    | nil => rfl
    | cons f0 fs =>
      dsimp only
      rw [if_neg (by simp)]
      have h0 : ((f0 :: fs).map Obj.name)[0]? = some (.name f0) := rfl
      have hget : Arr.getName rs ((f0 :: fs).map Obj.name) 0 s = .ok (some f0, s) := Arr.getName_direct (rs := rs) (i := 0) s h0 (by intro n g h; cases h)
      rw [bind_of_ok hget]
      rw [if_neg (by simpa using hcr)]
      rfl

/-- **C59, partial** `GetObject` on an in-use entry whose offset is that of a header, a dictionary, the
keyword `stream`, a line break, data and `endstream`: the value is the dictionary and the stream is
the data up to `endstream` without its final line break, decrypted, then put through the listed
filters in order. Missing: filters and parameters given by reference, a `Crypt` filter in the list
(`C42_stream_filter`), and objects whose text up to the first nine bytes of data is longer than the
reader's buffer (there it is false, `C19_false`). -/
theorem C59_stream_partial {env : Env} {n : Int} {e : XrefEntry} {ds gs : List Nat} {h w t w' x eol d v r p : Bytes} {D : Dict} {es : List Err}
    (hx : InUse env n e (h ++ (w ++ (t ++ (w' ++ (b!"stream" ++ (x ++ (eol ++ (d ++ (endMark ++ r))))))))))
    (hh : HeaderText ds gs h) (hw : Blank w) (hs : Stops (w ++ t)) (hne : t ≠ [])
    (ho : ObjAt (.dict D) t (w' ++ (b!"stream" ++ (x ++ (eol ++ (d ++ (endMark ++ r)))))) es)
    (hw' : Blank w') (hxs : Stops (x ++ eol)) (hxe : ∀ b ∈ x, b ≠ 10 ∧ b ≠ 13) (he : LineBreak eol (d ++ (endMark ++ r)))
    (hd : FirstMark d r) (hv : Chop d v)
    (hlen : (h ++ (w ++ (t ++ (w' ++ (b!"stream" ++ (x ++ eol)))))).length + 9 ≤ 4096)
    {g : Bytes → Bytes} (hg : ∀ b, stringDec env n e b = .ok (g b))
    {fs : List Bytes} {ps : List Dict} (hf : Filters (mapStrD g D) fs) (hp : Parms (mapStrD g D) ps)
    (hty : ∀ a b, D.get? b!"Type" ≠ some (.ref a b)) (hcr : fs.head? ≠ some b!"Crypt")
    (hdec : decrypt env.ext env.verbose (newDecryptor env.ext (streamFilterOf env e D) n e.generation) v = .ok p) (f : Nat) (s : PS) :
    ∃ s1, s1.log = s.log ++ es ∧ s1.pos + r.length = env.file.length ∧
      getObject env f n s = (decodeAll env.ext.toCodecs (resolver env f) fs ps (some p) >>= fun out =>
        pure ⟨n, e.generation, .dict (mapStrD g D), out⟩ : M IndObj) s1 := by
  have hs' : Stops (w ++ (t ++ (w' ++ (b!"stream" ++ (x ++ (eol ++ (d ++ (endMark ++ r)))))))) := by
    intro b u hb
    cases hwt : w ++ t with
    | nil => exact absurd (List.append_eq_nil_iff.1 hwt).2 hne
    | cons c z =>
      rw [← List.append_assoc, hwt] at hb
      obtain ⟨rfl, -⟩ := List.cons.inj hb
      exact hs _ _ hwt
  have hxs' : Stops (x ++ (eol ++ (d ++ (endMark ++ r)))) := by
    intro b u hb
    have hene : eol ≠ [] := by rcases he with rfl | rfl | ⟨rfl, -⟩ <;> simp
    cases hwt : x ++ eol with
    | nil => exact absurd (List.append_eq_nil_iff.1 hwt).2 hene
    | cons c z =>
      rw [← List.append_assoc, hwt] at hb
      obtain ⟨rfl, -⟩ := List.cons.inj hb
      exact hxs _ _ hwt
  obtain ⟨s1, h1, p1, l1, b1⟩ := getObjectF_value hx hh hw hs' ho hg (resolver env f) s
  have hoff := hx.text
  have hrest : rest env.file s1 = w' ++ (b!"stream" ++ (x ++ (eol ++ (d ++ (endMark ++ r))))) := by
    rw [rest, p1]
    rw [← List.append_assoc, ← List.append_assoc] at hoff
    rw [show e.offset.toNat + h.length + w.length + t.length = e.offset.toNat + ((h ++ w) ++ t).length by simp; omega, ← List.drop_drop, hoff, List.drop_left]
  obtain ⟨k1, k2⟩ := readKeyword_spec env.file s1
  rw [hrest, lKeyword_word hw' (by decide) (by decide) hxs'] at k1 k2
  have b2 := readKeyword_inv (since_inv env.file e.offset.toNat).toInv0 b1
  have hrest2 : env.file.drop (readKeyword env.file s1).2.pos = x ++ (eol ++ (d ++ (endMark ++ r))) := by
    have := rest_eq (file := env.file) k2.pos
    rw [hrest] at this
    rw [← rest, this, ← List.append_assoc, List.drop_left' (by simp)]
  have hflen : (env.file.drop e.offset.toNat).length = _ := congrArg List.length hoff
  have hbuf : Buffered env.file (readKeyword env.file s1).2 (x.length + eol.length + 9) := by
    have hp2 := k2.pos
    simp only [List.length_append, List.length_drop] at hflen hlen
    rcases b2.buf with hb | hb | hb
    · left; exact ⟨hb.2, by omega⟩
    · right; left; exact ⟨by simp only at hp2; omega, hb.2⟩
    · right; right; exact hb
  obtain ⟨r1, r2⟩ := readStreamRaw_data hxe he hd hv hrest2 hbuf
  obtain ⟨os, hpl, hos⟩ := parmsList_parms (resolver env f) hp (readKeyword env.file s1).2
  refine ⟨(readStreamRaw env.file (readKeyword env.file s1).2).2, ?_, ?_, ?_⟩
  · rw [r2.log, k2.log, l1]; simp
  · rw [r2.pos, k2.pos, p1]
    simp only [List.length_append, List.length_drop] at hflen ⊢
    have : endMark.length = 9 := rfl
    omega
  · rw [getObject, h1]
    have hst : getStreamF env (resolver env f) n e (.dict (mapStrD g D)) s1 =
        decodeAll env.ext.toCodecs (resolver env f) fs ps (some p) (readStreamRaw env.file (readKeyword env.file s1).2).2 := by
      rw [getStreamF, ofFun_bind, if_pos k1]
      dsimp only
      rw [show (Obj.dict (mapStrD g D)).asDict?.getD [] = mapStrD g D from rfl]
      rw [bind_of_ok (filterList_filters _ hf _), bind_of_ok hpl]
      have hcrypt : streamCrypt (resolver env f) env.sh e.isEncrypted (mapStrD g D) (fs.map .name) os (readKeyword env.file s1).2 =
          .ok ((streamFilterOf env e D, fs.map .name, os), (readKeyword env.file s1).2) :=
        streamCrypt_names hty hcr
      rw [bind_of_ok hcrypt]
      show readStream _ _ _ _ _ _ _ = _
      rw [readStream, ofFun_bind, r1]
      show (ofRes (decrypt _ _ _ v) >>= _ : M (Option Bytes)) _ = _
      rw [hdec]
      show decodeLoop _ _ _ _ _ _ _ _ = _
      rw [List.length_map]
      have := decodeLoop_names env.ext.toCodecs (resolver env f) (fs.map .name) os fs ps os [] [] rfl rfl (.inl rfl) (.inr rfl) hos (some p)
      exact congrFun this _
    rw [bind_run, bind_run]
    show (getStreamF env (resolver env f) n e (.dict (mapStrD g D)) s1 >>= _) = _
    rw [hst]
    rfl

/-! ### An example that meets the hypotheses of both -/

theorem nameText_plain : ∀ v : Bytes, (∀ b ∈ v, Spec.IsRegular b ∧ b ≠ 35) → NameText v v []
  | [], _ => .nil
  | b :: v, h => .plain (h b (by simp)).1 (h b (by simp)).2 (nameText_plain v fun c hc => h c (by simp [hc]))

/-- The text of a small file: a plain object at offset 0, a stream object at offset 20. -/
def twoObjects : Bytes := b!"1 0 obj\n(a)\nendobj\n\n2 0 obj<</Filter/ASCIIHexDecode>>\nstream\n4142>\nendstream\nendobj"

/-- An environment in which that file is loaded, without encryption. -/
def twoEnv (ext : Ext) (sh : SecHandler) : Env :=
  ⟨twoObjects, [(1, ⟨0, 0, 1, false, false⟩), (2, ⟨20, 0, 1, false, false⟩)], sh, ext, some false⟩

theorem twoHeader1 : HeaderText [1] [0] b!"1 0 obj" :=
  .mk (w := []) (ds := [1]) (w1 := b!" ") (gs := [0]) (w2 := b!" ") .nil (by decide) (by decide) (.ws (by decide) .nil) (by decide) (by decide) (by decide) (.ws (by decide) .nil)

theorem twoHeader2 : HeaderText [2] [0] b!"2 0 obj" :=
  .mk (w := []) (ds := [2]) (w1 := b!" ") (gs := [0]) (w2 := b!" ") .nil (by decide) (by decide) (.ws (by decide) .nil) (by decide) (by decide) (by decide) (.ws (by decide) .nil)

theorem two_plain (ext : Ext) (sh : SecHandler) (f : Nat) (s : PS) :
    ∃ s', getObject (twoEnv ext sh) f 1 s = .ok (⟨1, 0, .str b!"a", none⟩, s') ∧ s'.log = s.log := by
  have h := C58_object (env := twoEnv ext sh) (n := 1) (e := ⟨0, 0, 1, false, false⟩) (h := b!"1 0 obj") (w := b!"\n") (t := b!"(a)")
    (r := b!"\nendobj\n\n2 0 obj<</Filter/ASCIIHexDecode>>\nstream\n4142>\nendstream\nendobj") (o := .str b!"a") (es := [])
    ⟨rfl, rfl, by decide, rfl⟩ twoHeader1 (.ws (by decide) .nil) (by rintro b t ⟨⟩; decide)
    (.str (.plain (by decide) (by decide) (by decide) .nil)) (by rw [streamNext_iff]; decide) (g := fun b => b) (fun b => rfl) f s
  simpa [mapStr] using h

theorem two_stream (ext : Ext) (sh : SecHandler) (f : Nat) (s : PS) :
    ∃ s', getObject (twoEnv ext sh) f 2 s = .ok (⟨2, 0, .dict [(b!"Filter", .name b!"ASCIIHexDecode")], some b!"AB"⟩, s') ∧ s'.log = s.log := by
  have hD : ObjAt (.dict (dictOf [(b!"Filter", .name b!"ASCIIHexDecode")])) b!"<</Filter/ASCIIHexDecode>>"
      (b!"\n" ++ (b!"stream" ++ ([] ++ (b!"\n" ++ (b!"4142>\n" ++ (endMark ++ b!"\nendobj")))))) [] := by
    have h1 : ObjAt (.name b!"ASCIIHexDecode") b!"/ASCIIHexDecode" (b!">>" ++ (b!"\n" ++ (b!"stream" ++ ([] ++ (b!"\n" ++ (b!"4142>\n" ++ (endMark ++ b!"\nendobj"))))))) [] :=
      .name (nameText_plain _ (by decide)) (by rintro b t ⟨⟩; decide)
    have h2 : DictAt [(b!"Filter", .name b!"ASCIIHexDecode")] b!"/Filter/ASCIIHexDecode>>"
        (b!"\n" ++ (b!"stream" ++ ([] ++ (b!"\n" ++ (b!"4142>\n" ++ (endMark ++ b!"\nendobj")))))) [] :=
      .cons (w := []) (kt := b!"Filter") (w' := []) (u := b!">>") .nil (nameText_plain _ (by decide)) .nil (by rintro b t ⟨⟩; decide) h1 (.nil (w := []) .nil)
    exact .dict h2
  obtain ⟨s1, l1, -, h⟩ := C59_stream_partial (env := twoEnv ext sh) (n := 2) (e := ⟨20, 0, 1, false, false⟩) (h := b!"2 0 obj") (w := [])
    (t := b!"<</Filter/ASCIIHexDecode>>") (w' := b!"\n") (x := []) (eol := b!"\n") (d := b!"4142>\n") (v := b!"4142>") (r := b!"\nendobj") (p := b!"4142>")
    ⟨rfl, rfl, by decide, by show twoObjects.drop 20 = _; decide⟩ twoHeader2 .nil (by rintro b t ⟨⟩; decide) (by decide) hD (.ws (by decide) .nil) (by rintro b t ⟨⟩; decide)
    (by decide) (.inl rfl) (firstMark_of (by decide)) (.lf b!"4142>" (by decide)) (by decide) (g := fun b => b) (fun b => rfl)
    (fs := [b!"ASCIIHexDecode"]) (ps := []) (.one rfl) (.none rfl) (by intro a b h; cases h) (by decide) rfl f s
  rw [mapStrD_id (fun b => rfl)] at h
  exact ⟨s1, h, by rw [l1, List.append_nil]⟩

end Pdf.Props
