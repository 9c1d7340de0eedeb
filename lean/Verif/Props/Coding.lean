import Verif.Spec.Coding
import Verif.Spec.Layout
import Verif.Props.Flate
/-!
# Chains of filters (C93)
-/

namespace Pdf.Props
open Pdf.Spec St

theorem predicted_reversed {p : Dict} {d w : Bytes} (h : Predicted p d w) :
    reversePredictor w (intOr p b!"Predictor" 1) (intOr p b!"BitsPerComponent" 8) (intOr p b!"Colors" 1) (intOr p b!"Columns" 1) = .ok d := by
  cases h with
  | none h => rw [h]; simp only [reversePredictor, if_true, ite_self]
  | tiff h1 h2 h3 h4 h5 h6 h7 h8 =>
    rw [h1, h2, h3, h4]
    exact C32_tiff_inverts _ _ _ _ _ _ h5 h6 h7 h8
  | png h2 h3 h4 h5 h6 h7 h8 h9 =>
    rw [h2, h3, h4]
    exact C31_png_inverts_partial _ _ _ _ _ h5 h6 h7 h9 h8

theorem encode85_nil {d : Bytes} (h : encode85 d = []) : d = [] := by
  match d, h with
  | [], _ => rfl
  | [a], h => simp [encode85, last85] at h
  | [a, b], h => simp [encode85, last85] at h
  | [a, b, c], h => simp [encode85, last85] at h
  | a :: b :: c :: e :: t, h =>
    exfalso
    rw [encode85, group85] at h
    split at h <;> simp at h

theorem coded_nil {p : Dict} {f d enc : Bytes} (h : Coded p f d enc) (he : enc = []) : d = [] := by
  cases h with
  | hex h =>
    subst he
    cases h
    rfl
  | hexEnd _ => simp at he
  | base85 h1 h2 _ =>
    obtain ⟨rfl, -⟩ := List.append_eq_nil_iff.mp he
    generalize e : encode85 d = t at h2
    cases h2
    exact encode85_nil e
  | @runs rs h =>
    cases rs with
    | nil => rfl
    | cons r rs => cases r <;> simp [Run.encode] at he
  | runsEnd _ => simp at he
  | lzw _ _ h =>
    subst he
    have := C91_readers h
    rw [show lzwReader _ [] = ([], true) from rfl] at this
    cases this
  | flate _ _ h =>
    subst he
    obtain ⟨_, _, _, _, _, _, _, _, _, he, _⟩ := h
    cases he

/-- **C93, partial** One filter gives back what was encoded. (No bytes may come back as a nil slice.) Missing: last ASCII85 groups where the digits left out
are not zero (`C93_false`), and Sub, Average and Paeth rows of pixels of more than one byte (`C93_predictor_false`). -/
theorem C93_filter_partial {cd : Codecs} (hl : cd.lzw = lzwReader) (hz : cd.zlib = zlibReader) {p : Dict} {f d enc : Bytes} (h : Coded p f d enc) :
    ∃ out, (∀ rs, decodeStream cd rs f (some enc) p = pure out) ∧ out.getD [] = d ∧ (d ≠ [] → out = some d) := by
  by_cases he : enc = []
  · obtain rfl := coded_nil h he
    subst he
    exact ⟨some [], fun _ => rfl, rfl, fun h => absurd rfl h⟩
  · obtain ⟨b, e, rfl⟩ : ∃ b e, enc = b :: e := by
      cases enc with
      | nil => exact absurd rfl he
      | cons b e => exact ⟨b, e, rfl⟩
    have simple : ∀ x, (∀ rs, decodeStream cd rs f (some (b :: e)) p = pure (some x)) → x = d →
        ∃ out, (∀ rs, decodeStream cd rs f (some (b :: e)) p = pure out) ∧ out.getD [] = d ∧ (d ≠ [] → out = some d) := by
      rintro x hx rfl
      exact ⟨some x, hx, rfl, fun _ => rfl⟩
    have run : ∀ x, (∀ rs, decodeStream cd rs f (some (b :: e)) p = pure (if x.isEmpty then none else some x)) → x = d →
        ∃ out, (∀ rs, decodeStream cd rs f (some (b :: e)) p = pure out) ∧ out.getD [] = d ∧ (d ≠ [] → out = some d) := by
      rintro x hx rfl
      refine ⟨_, hx, ?_, ?_⟩
      · cases x <;> rfl
      · cases x with
        | nil => intro h; exact absurd rfl h
        | cons => intro _; rfl
    generalize henc : b :: e = enc at h
    cases h with
    | hex h => rw [← henc]; exact simple _ (fun _ => rfl) (by rw [henc]; exact (C28_asciiHex_inverts h).1)
    | hexEnd h => rw [← henc]; exact simple _ (fun _ => rfl) (by rw [henc]; exact (C28_asciiHex_inverts h).2 _)
    | base85 h1 h2 h3 => rw [← henc]; exact simple _ (fun _ => rfl) (by rw [henc]; exact (C29_ascii85_inverts_partial h2 _ h3).2.2.mpr h1)
    | runs h => rw [← henc]; exact run _ (fun _ => rfl) (by rw [henc]; exact (C30_runLength_inverts _ h).1)
    | runsEnd h => rw [← henc]; exact run _ (fun _ => rfl) (by rw [henc]; exact (C30_runLength_inverts _ h).2 _)
    | lzw h1 h2 h3 => rw [← henc]; exact simple _ (fun rs => funext fun s => by rw [henc]; exact C91_decode hl h1 h3 (predicted_reversed h2) rs s) rfl
    | flate h1 h2 h3 => rw [← henc]; exact simple _ (fun rs => funext fun s => by rw [henc]; exact C92_decode hz h1 h3 (predicted_reversed h2) rs s) rfl

theorem decodeAll_nothing {cd : Codecs} {rs : Resolver} {o : Option Bytes} (ho : o.getD [] = []) : ∀ (fs : List Bytes) (ps : List Dict), decodeAll cd rs fs ps o = pure o
  | [], _ => rfl
  | f :: fs, ps => by
    have h : decodeStream cd rs f o (ps.headD []) = pure o := by
      match o, ho with
      | none, _ => rfl
      | some [], _ => rfl
    rw [decodeAll, h]
    exact decodeAll_nothing ho fs ps.tail

theorem codedBy_nil {fs : List Bytes} {ps : List Dict} {d raw : Bytes} (h : CodedBy fs ps d raw) (he : raw = []) : d = [] := by
  induction h with
  | nil => exact he
  | cons h1 _ ih => exact ih (coded_nil h1 he)

/-- **C93, partial** The filters in order give back the data. Missing: as for `C93_filter_partial`. -/
theorem C93_chain_partial {cd : Codecs} (hl : cd.lzw = lzwReader) (hz : cd.zlib = zlibReader) {fs : List Bytes} {ps : List Dict} {d raw : Bytes} (h : CodedBy fs ps d raw) :
    ∃ out, (∀ rs, decodeAll cd rs fs ps (some raw) = pure out) ∧ out.getD [] = d ∧ (d ≠ [] → out = some d) := by
  induction h with
  | @nil ps d => exact ⟨some d, fun rs => rfl, rfl, fun _ => rfl⟩
  | @cons f fs ps d mid raw h1 h2 ih =>
    obtain ⟨o, h3, h4, h5⟩ := C93_filter_partial hl hz h1
    by_cases hm : mid = []
    · obtain rfl := codedBy_nil h2 hm
      subst hm
      refine ⟨o, fun rs => ?_, h4, fun h => absurd rfl h⟩
      rw [decodeAll, h3 rs]
      exact decodeAll_nothing h4 fs ps.tail
    · obtain rfl := h5 hm
      obtain ⟨out, h6, h7, h8⟩ := ih
      refine ⟨out, fun rs => ?_, h7, h8⟩
      rw [decodeAll, h3 rs]
      exact h6 rs

/-- **C93, partial** In the documents of the other theorems, a stream object stands for the data that its dictionary's filters encode. Missing: as for
`C93_filter_partial`. -/
theorem C93_object_partial {cd : Codecs} (hl : cd.lzw = lzwReader) (hz : cd.zlib = zlibReader) {n g : Int} {D : Dict} {fs : List Bytes} {ps : List Dict} {d raw : Bytes}
    (hf : Filters D fs) (hp : Parms D ps) (ht : ∀ a b, Assoc.get? D b!"Type" ≠ some (.ref a b)) (h : CodedBy fs ps d raw) (hd : d ≠ []) :
    Decoded cd ⟨n, g, .dict D, some raw⟩ ⟨n, g, .dict D, some d⟩ := by
  obtain ⟨out, h1, _, h2⟩ := C93_chain_partial hl hz h
  obtain rfl := h2 hd
  refine .stream hf hp ht ?_ h1
  cases h with
  | nil => simp
  | cons h1 _ =>
    intro e
    injection e with e
    subst e
    generalize he : b!"Crypt" = f at h1
    cases h1 <;> exact absurd he (by decide)

/-- The streams that Go's readers read. -/
theorem C93_concrete : Concrete.ext.toCodecs.lzw = lzwReader ∧ Concrete.ext.toCodecs.zlib = zlibReader := ⟨rfl, rfl⟩

/-- Four rows of three bytes, each row stored as its difference from the one before, compressed, as one literal run. -/
def codedDict : Dict :=
  [(b!"Filter", .arr [.name b!"RunLengthDecode", .name b!"FlateDecode"]),
   (b!"DecodeParms", .arr [.null, .dict [(b!"Predictor", .num (.ofInt 12)), (b!"Columns", .num (.ofInt 3))]])]

def codedData : Bytes := [10, 20, 30, 11, 21, 31, 11, 21, 31, 12, 23, 34]

def codedRaw : Bytes := [23, 120, 218, 99, 226, 18, 145, 99, 98, 100, 100, 100, 98, 96, 96, 96, 98, 100, 98, 6, 0, 3, 188, 0, 78, 128]

theorem codedRaw_codes :
    CodedBy [b!"RunLengthDecode", b!"FlateDecode"] [[], [(b!"Predictor", .num (.ofInt 12)), (b!"Columns", .num (.ofInt 3))]] codedData codedRaw := by
  refine .cons (.runsEnd (rs := [.lit [120, 218, 99, 226, 18, 145, 99, 98, 100, 100, 100, 98, 96, 96, 96, 98, 100, 98, 6, 0, 3, 188, 0, 78]]) (rest := []) ?_) (.cons (.flate ?_
    (.png (bpc := 8) (colors := 1) (columns := 3) (rows := [(2, 2, [10, 20, 30]), (2, 2, [11, 21, 31]), (2, 2, [11, 21, 31]), (2, 2, [12, 23, 34])]) rfl rfl ?_ (by decide) (by decide) (by decide) ?_ ?_) ?_) .nil)
  · simp [Run.Valid]
  · intro k hk n g
    simp only [List.mem_cons, List.not_mem_nil, or_false] at hk
    rcases hk with rfl | rfl | rfl | rfl | rfl <;> (intro h; cases h)
  · decide +kernel
  · decide +kernel
  · decide +kernel
  · exact (C92_exact (by decide)).mp (by decide +kernel)

example : Decoded Concrete.ext.toCodecs ⟨4, 0, .dict codedDict, some codedRaw⟩ ⟨4, 0, .dict codedDict, some codedData⟩ :=
  C93_object_partial rfl rfl (.many (fs := [_, _]) rfl) (.many rfl (.cons .null (.cons .dict .nil))) (by intro a b h; cases h) codedRaw_codes (by decide)

/-- A last group of one byte, whose encoding leaves out zeros. -/
example : Dropped85 [0, 0, 0, 0, 0] = 0 ∧ encode85 [0, 0, 0, 0, 0] = b!"z!!" := by decide

/-- **C93 fails** for ASCII85 with a last group of one byte: `A` is decoded to `@`, by any chain that ends in this filter. -/
theorem C93_false (cd : Codecs) (rs : Resolver) (p : Dict) : decodeAll cd rs [b!"ASCII85Decode"] [p] (some (encode85 b!"A" ++ b!"~>")) = pure (some b!"@") := by
  have h : encode85 b!"A" ++ b!"~>" = b!"5l~>" := by decide
  have h2 : ascii85Decode b!"5l~>" = b!"@" := by decide
  rw [h, ← h2]
  rfl

/-- **C93 fails** for rows with the Sub filter and pixels of three bytes, whatever was compressed how: reversing the prediction of two such pixels does not give them back. -/
theorem C93_predictor_false : let p : Dict := [(b!"Predictor", .num (.ofInt 15)), (b!"Colors", .num (.ofInt 3)), (b!"Columns", .num (.ofInt 2))]
    ∀ cd : Codecs, cd.zlib = zlibReader → ∀ enc, IsZlib (pngFilter 3 [] [(1, 1, [1, 2, 3, 4, 5, 6])]) enc → ∃ out, (∀ rs s, decodeStream cd rs b!"FlateDecode" (some enc) p s = .ok (some out, s)) ∧ out ≠ [1, 2, 3, 4, 5, 6] := by
  intro p cd hz enc he
  refine ⟨[1, 3, 6, 9, 12, 15], fun rs s => C92_decode hz ?_ he ?_ rs s, by decide⟩
  · intro k hk n g
    simp only [List.mem_cons, List.not_mem_nil, or_false] at hk
    rcases hk with rfl | rfl | rfl | rfl | rfl <;> (intro h; cases h)
  · decide +kernel

/-- The two pixels, compressed. -/
example : IsZlib (pngFilter 3 [] [(1, 1, [1, 2, 3, 4, 5, 6])]) [120, 156, 99, 100, 100, 98, 6, 2, 0, 0, 60, 0, 17] := (C92_exact (by decide)).mp (by decide +kernel)

end Pdf.Props
