import Verif.Props.Coding
import Verif.Props.Pages
import Verif.Lemmas.Writable
/-!
# Files with encoded streams (C94)
-/

namespace Pdf.Props
open Pdf.Spec St

theorem parmList_unique {os : List Obj} {ps : List Dict} (h : ParmList os ps) : ∀ {qs}, ParmList os qs → ps = qs := by
  induction h with
  | nil => intro qs h; cases h; rfl
  | cons h1 _ ih =>
    intro qs h
    cases h with
    | cons h2 h3 =>
      rw [ih h3]
      congr 1
      cases h1 <;> cases h2 <;> rfl

theorem decoded_unique {cd : Codecs} {a o o' : IndObj} (h : Decoded cd a o) (h' : Decoded cd a o') : o = o' := by
  cases h with
  | value => cases h'; rfl
  | @stream n g D v fs ps out f1 p1 _ _ d1 =>
    cases h' with
    | @stream _ _ _ _ gs qs out' f2 p2 _ _ d2 =>
      obtain rfl : fs = gs := by
        cases f1 with
        | none h1 => cases f2 <;> simp_all
        | one h1 => cases f2 <;> simp_all
        | @many fs h1 =>
          cases f2 with
          | none h2 => simp_all
          | one h2 => simp_all
          | many h2 =>
            rw [h1] at h2
            simp only [Option.some.injEq, Obj.arr.injEq] at h2
            exact List.map_injective_iff.2 (fun a b h => Obj.name.inj h) h2
      obtain rfl : ps = qs := by
        cases p1 with
        | none h1 => cases p2 <;> simp_all
        | one h1 => cases p2 <;> simp_all
        | many h1 l1 =>
          cases p2 with
          | none h2 => simp_all
          | one h2 => simp_all
          | many h2 l2 =>
            rw [h1] at h2
            cases h2
            exact parmList_unique l1 l2
      have := congrFun ((d1 fun _ => pure ⟨0, 0, .null, none⟩).symm.trans (d2 _)) PS.init
      obtain rfl : out = out' := by
        simp only [pure] at this
        injection this with this
        injection this
      rfl

theorem dataOf_decoded {cd : Codecs} (hl : cd.lzw = lzwReader) (hz : cd.zlib = zlibReader) {o o' : IndObj} (h : DataOf o o') : Decoded cd (reread o) o' := by
  cases h with
  | value => exact .value
  | @stream n g D fs ps d raw h1 h2 h3 h4 h5 h6 =>
    have e : withoutCR raw = raw := by rw [withoutCR, if_neg h4]
    show Decoded cd ⟨n, g, .dict D, some (withoutCR raw)⟩ _
    rw [e]
    exact C93_object_partial hl hz h1 h2 h3 h5 h6

open Classical in
/-- What a stored object stands for. -/
noncomputable def dataOf (o : IndObj) : IndObj := if h : ∃ o', DataOf o o' then h.choose else reread o

theorem dataOf_spec {o : IndObj} (h : ∃ o', DataOf o o') : DataOf o (dataOf o) := by
  rw [dataOf, dif_pos h]
  exact h.choose_spec

theorem dataOf_same {o o' : IndObj} (h : DataOf o o') : o'.number = o.number ∧ o'.generation = o.generation ∧ o'.value = o.value := by cases h <;> exact ⟨rfl, rfl, rfl⟩

theorem dataOf_keeps (o : IndObj) : (dataOf o).number = o.number ∧ (dataOf o).generation = o.generation ∧ (dataOf o).value = o.value := by
  by_cases h : ∃ o', DataOf o o'
  · exact dataOf_same (dataOf_spec h)
  · rw [dataOf, dif_neg h]; exact ⟨rfl, rfl, rfl⟩

instance : Keeps dataOf := ⟨fun o => (dataOf_keeps o).1, fun o => (dataOf_keeps o).2.1, fun o => (dataOf_keeps o).2.2⟩

theorem dataOf_eq {o o' : IndObj} (h : DataOf o o') : dataOf o = o' :=
  decoded_unique (dataOf_decoded (cd := Concrete.ext.toCodecs) rfl rfl (dataOf_spec ⟨_, h⟩)) (dataOf_decoded rfl rfl h)

theorem after_put {es : List Edit} {n : Int} {o : IndObj} (h : after es n = some o) : ∃ e ∈ es, o ∈ e.puts ∧ o.number = n := by
  have key : ∀ (es : List Edit) (m : Int → Option IndObj), es.foldl Edit.apply m n = some o → m n = some o ∨ ∃ e ∈ es, o ∈ e.puts ∧ o.number = n := by
    intro es
    induction es with
    | nil => intro m h; exact .inl h
    | cons e es ih =>
      intro m h
      rcases ih _ h with h | ⟨e', h1, h2⟩
      · rw [Edit.apply] at h
        split at h
        · rename_i o' ho
          cases h
          exact .inr ⟨e, by simp, List.mem_reverse.1 (List.mem_of_find?_eq_some ho), by simpa using List.find?_some ho⟩
        · split at h
          · cases h
          · exact .inl h
      · exact .inr ⟨e', by simp [h1], h2⟩
  rcases key es _ h with h | h
  · cases h
  · exact h

section
variable {root : Nat} {es : List Edit} {ext : Ext} (hl : ext.lzw = lzwReader) (hz : ext.zlib = zlibReader) (hr : root < 2 ^ 53) (hne : Begins es) (he : ∀ e ∈ es, e.Stored) (hdata : ∀ e ∈ es, ∀ o ∈ e.puts, ∃ o', DataOf o o')
  (hfit : TablesFit root 9 none es) (hlen : (fileText root es).length < 2 ^ 53)
include hl hz hr hne he hdata hfit hlen

theorem coded_document : Document ext.toCodecs docHead (updatesBy dataOf root 9 none es) :=
  stored_document hr hne he (fun e h o ho => dataOf_decoded hl hz (dataOf_spec (hdata e h o ho))) hfit hlen

/-- **C94, partial** A file written as a history of edits, with encoded streams: every number is read as the object after the last edit,
with the data that its stream encodes. Missing: as for C93 and C85; encodings that end in a carriage return; streams of no bytes. -/
theorem C94_read_partial (verbose : Option Bool) (ord : Order) (f fx : Nat) (hfx : es.length ≤ fx) (pw : Bytes) :
    ∃ ls, load ⟨fileText root es, ext, verbose⟩ ord (f + 1) fx pw LS.init = .ok (none, ls) ∧ ls.trailer.get? b!"Root" = some (.ref root 0) ∧
      (∀ n o o', after es n = some o → DataOf o o' → ∀ f' s, ∃ s', getObject (ls.env ⟨fileText root es, ext, verbose⟩) f' n s = .ok (o', s') ∧ s'.log = s.log) ∧
      (∀ n, after es n = none → ∀ f' s, getObject (ls.env ⟨fileText root es, ext, verbose⟩) f' n s = .ok (⟨n, 0, .null, none⟩, s)) := by
  have hd := coded_document hl hz hr hne he hdata hfit hlen
  have hR : RightTables (docText docHead (updatesBy dataOf root 9 none es)) docHead.length (updatesBy dataOf root 9 none es) := (rightTables_plain (updatesBy_linear root 9 es)).2 (stored_right es he _ _)
  have henc : trailerFor (updatesBy dataOf root 9 none es) b!"Encrypt" = none := stored_trailer (by decide) es hne.ne 9
  have hfx' : (updatesBy dataOf root 9 none es).length ≤ fx := by rw [updatesBy_length]; exact hfx
  obtain ⟨ls', h1, h2, h3⟩ := C74_meant_partial hd hR henc (stored_first_tail he) verbose ord f fx hfx' pw
  obtain ⟨ls, g1, g2, -⟩ := C74_read_partial hd henc (stored_first_tail he) verbose ord f fx hfx' pw
  obtain rfl : ls' = ls := by
    rw [g1] at h1
    simp only [Res.ok.injEq, Prod.mk.injEq, true_and] at h1
    exact h1.symm
  rw [docText_updatesBy] at *
  refine ⟨ls', g1, g2 _ _ (stored_trailer (by decide) es hne.ne 9), fun n o o' ho hoo f' s => ?_, fun n hn => ?_⟩
  · obtain ⟨s', k1, k2⟩ := h2 n (pieceBy dataOf o) (by rw [stored_means he, ho]; rfl) f' s
    refine ⟨s', ?_, by rw [k2]; simp [pieceBy]⟩
    rw [k1, pieceBy, dataOf_eq hoo]
  · exact h3 n (by rw [stored_means he, hn]; rfl)

/-- **C94, partial** `Parse` returns without an error on such a file, and raw.pdf has every object that there is after the last edit, with the data that its
stream encodes. Missing: as for `C94_read_partial` and `C75_partial`. -/
theorem C94_report_partial {sys : Sys} {v : Bool} (hf : sys.input = some (fileText root es)) (hc : ∀ h, sys.canCreate h = true)
    (hk : ∀ n o, after es n = some o → ∀ d ∈ dictsIn o.value, ∀ m g, d.get? b!"Kids" ≠ some (.ref m g)) (hs : ∀ n o, after es n = some o → ∀ o', DataOf o o' → ∀ data, o'.stream = some data → ∃ font, newFont data = .ok font) (pw : Bytes) :
    ∃ r F, (∀ f fx ft, F ≤ f → F ≤ fx → F ≤ ft → parse sys ext (some v) f fx ft pw = r) ∧ r.outcome = .returned none ∧
      ∀ n o o', after es n = some o → DataOf o o' → ∃ x a b, Reordered o.value x ∧ r.out.raw = a ++ ((withValue o' x).toBytes ++ b!"\n" ++ b) := by
  have hd := coded_document hl hz hr hne he hdata hfit hlen
  have hR : RightTables (docText docHead (updatesBy dataOf root 9 none es)) docHead.length (updatesBy dataOf root 9 none es) := (rightTables_plain (updatesBy_linear root 9 es)).2 (stored_right es he _ _)
  have henc : trailerFor (updatesBy dataOf root 9 none es) b!"Encrypt" = none := stored_trailer (by decide) es hne.ne 9
  have hin : ∀ n o, after es n = some o → ∃ o', DataOf o o' := fun n o ho => let ⟨e, h1, h2, _⟩ := after_put ho; hdata e h1 o h2
  obtain ⟨r, F, h1, h2, h3⟩ := C75_partial (v := v) (by rw [docText_updatesBy]; exact hf) hc hd hR henc (stored_first_tail he) (by
    refine KidsInPlace.ends fun n p hp => ?_
    rw [stored_means he] at hp
    obtain ⟨o, ho, rfl⟩ := Option.map_eq_some_iff.1 hp
    show ∀ d ∈ dictsIn (dataOf o).value, _
    rw [(dataOf_keeps o).2.2]
    exact hk n o ho) (by
    intro n p hp
    rw [stored_means he] at hp
    obtain ⟨o, ho, rfl⟩ := Option.map_eq_some_iff.1 hp
    exact hs n o ho _ (dataOf_spec (hin n o ho))) pw
  refine ⟨r, F, h1, h2, fun n o o' ho hoo => ?_⟩
  obtain ⟨view, hv, -⟩ := C75_means (updatesBy dataOf root 9 none es)
  obtain ⟨l, ws, -, g1, g2, parts, g3, g4, g5⟩ := h3 view hv
  have hm : meant (updatesBy dataOf root 9 none es) n = some (pieceBy dataOf o) := by rw [stored_means he, ho]; rfl
  obtain ⟨y, hy, rfl⟩ := List.mem_map.1 (g3.mem_iff.2 ((g1 n).2 (by rw [hm]; rfl)))
  obtain ⟨p, k1, inside, x, -, k2, k3⟩ := g4 y hy
  rw [hm] at k1
  cases k1
  have hw : Write.raw (pieceBy dataOf o).obj x ∈ ws := by
    apply visible_sub
    rw [g5]
    exact List.mem_flatMap.2 ⟨y, hy, by rw [k3]; simp⟩
  obtain ⟨a, b, e⟩ := flatMap_has hw Write.rawPdf
  replace k2 : Reordered (dataOf o).value x := k2
  rw [(dataOf_keeps o).2.2] at k2
  refine ⟨x, a, b, k2, ?_⟩
  rw [g2.raw, e, pieceBy, dataOf_eq hoo]
  rfl

end

/-- What references stand for after the last edit, when no object is a reference itself. -/
theorem coded_view {root : Nat} {es : List Edit} (he : ∀ e ∈ es, e.Stored) (hn : ∀ n o, after es n = some o → ∀ m g, o.value ≠ .ref m g) :
    Means (updatesBy dataOf root 9 none es) ⟨fun n => ((after es n).map (·.value)).getD .null, fun n => (after es n).bind fun o => (dataOf o).stream⟩ := by
  intro n
  have hm := stored_means (μ := dataOf) (root := root) he n
  dsimp only
  cases ha : after es n with
  | none => rw [ha] at hm; exact .free (by simp) hm
  | some o =>
    rw [ha] at hm
    have := Final.stop (v := []) (p := pieceBy dataOf o) (by simp) hm (by show ∀ m g, (dataOf o).value ≠ _; rw [(dataOf_keeps o).2.2]; exact hn n o ha)
    rw [show (pieceBy dataOf o).obj.value = o.value from (dataOf_keeps o).2.2] at this
    exact this

/-! ### A document with compressed streams -/

/-- The content of the page, compressed. -/
def zContent : Bytes := [120, 218, 115, 10, 81, 208, 119, 83, 48, 84, 8, 73, 83, 208, 96, 208, 84, 8, 201, 82, 112, 13, 1, 0, 44, 200, 4, 95]

/-- The character map, compressed, as one run. -/
def zMap : Bytes := [37, 120, 218, 51, 84, 72, 74, 77, 207, 204, 75, 74, 43, 74, 204, 75, 79, 85, 176, 49, 48, 176, 3, 18, 134, 64, 194, 4, 72, 164, 230, 165, 64, 101, 0, 249, 69, 12, 76]

def zDict : Dict := [(b!"Filter", .name b!"FlateDecode"), (b!"Length", .num (.fin 28))]

def rzDict : Dict := [(b!"Filter", .arr [.name b!"RunLengthDecode", .name b!"FlateDecode"]), (b!"Length", .num (.fin 39))]

/-- A document with one page; then its content and the character map of its font are stored compressed. -/
def zEdits : List Edit := [
  ⟨[⟨1, 0, .dict [(b!"Type", .name b!"Catalog"), (b!"Pages", .ref 2 0)], none⟩,
    ⟨2, 0, .dict [(b!"Kids", .arr [.ref 3 0])], none⟩,
    ⟨3, 0, .dict [(b!"Contents", .ref 4 0), (b!"Resources", .dict [(b!"Font", .dict [(b!"F", .ref 5 0)])])], none⟩,
    ⟨4, 0, .dict [(b!"Length", .num (.fin 14))], some b!"BT [(A)] TJ ET"⟩,
    ⟨5, 0, .dict [(b!"ToUnicode", .ref 6 0)], none⟩], [0]⟩,
  ⟨[⟨6, 0, .dict rzDict, some zMap⟩, ⟨4, 0, .dict zDict, some zContent⟩], []⟩]

set_option maxRecDepth 100000 in
theorem zEdits_stored : ∀ e ∈ zEdits, e.Stored := by
  have : ∀ e ∈ zEdits, storedB e = true := by decide +kernel
  exact fun e he => stored_of_check (this e he)

theorem zContent_data : DataOf ⟨4, 0, .dict zDict, some zContent⟩ ⟨4, 0, .dict zDict, some codeShown⟩ :=
  .stream (fs := [_]) (ps := []) (.one rfl) (.none rfl) (by rintro a b ⟨⟩) (by decide) (.cons (.flate (by intro k _ n g h; cases h) (.none rfl) ((C92_exact (by decide)).mp (by decide +kernel))) .nil) (by decide)

theorem zMap_data : DataOf ⟨6, 0, .dict rzDict, some zMap⟩ ⟨6, 0, .dict rzDict, some twoCodes⟩ :=
  .stream (fs := [_, _]) (ps := []) (.many rfl) (.none rfl) (by rintro a b ⟨⟩) (by decide)
    (.cons (.runs (rs := [.lit (zMap.drop 1)]) (by simp [Run.Valid, zMap])) (.cons (.flate (by intro k _ n g h; cases h) (.none rfl) ((C92_exact (by decide)).mp (by decide +kernel))) .nil)) (by decide)

theorem zEdits_data : ∀ e ∈ zEdits, ∀ o ∈ e.puts, ∃ o', DataOf o o' := by
  intro e he o ho
  simp only [zEdits, List.mem_cons, List.not_mem_nil, or_false] at he
  rcases he with rfl | rfl <;> simp only [List.mem_cons, List.not_mem_nil, or_false] at ho
  · rcases ho with rfl | rfl | rfl | rfl | rfl
    · exact ⟨_, .value⟩
    · exact ⟨_, .value⟩
    · exact ⟨_, .value⟩
    · exact ⟨_, .stream (.none rfl) (.none rfl) (by rintro a b ⟨⟩) (by decide) .nil (by decide)⟩
    · exact ⟨_, .value⟩
  · rcases ho with rfl | rfl
    · exact ⟨_, zMap_data⟩
    · exact ⟨_, zContent_data⟩

theorem zEdits_begins : Begins zEdits := ⟨_, _, rfl, by simp⟩

theorem zEdits_fit : TablesFit 1 9 none zEdits := by
  refine ⟨?_, ?_, trivial⟩ <;> decide +kernel

theorem zEdits_length : (fileText 1 zEdits).length < 2 ^ 53 := by decide +kernel

/-- The content of the page is read as it was before it was compressed. -/
example (verbose : Option Bool) (ord : Order) (pw : Bytes) : ∃ ls, load ⟨fileText 1 zEdits, Concrete.ext, verbose⟩ ord 1 2 pw LS.init = .ok (none, ls) ∧
    ∀ s, ∃ s', getObject (ls.env ⟨fileText 1 zEdits, Concrete.ext, verbose⟩) 0 4 s = .ok (⟨4, 0, .dict zDict, some codeShown⟩, s') := by
  obtain ⟨ls, h1, -, h2, -⟩ := C94_read_partial (ext := Concrete.ext) rfl rfl (root := 1) (by decide) zEdits_begins zEdits_stored zEdits_data zEdits_fit zEdits_length verbose ord 0 2 (by decide) pw
  exact ⟨ls, h1, fun s => let ⟨s', h, _⟩ := h2 4 _ _ rfl zContent_data 0 s; ⟨s', h⟩⟩

/-- The objects after the two edits. -/
theorem zEdits_after {n : Int} {o : IndObj} (h : after zEdits n = some o) :
    o ∈ ([⟨1, 0, .dict [(b!"Type", .name b!"Catalog"), (b!"Pages", .ref 2 0)], none⟩,
    ⟨2, 0, .dict [(b!"Kids", .arr [.ref 3 0])], none⟩,
    ⟨3, 0, .dict [(b!"Contents", .ref 4 0), (b!"Resources", .dict [(b!"Font", .dict [(b!"F", .ref 5 0)])])], none⟩,
    ⟨4, 0, .dict zDict, some zContent⟩,
    ⟨5, 0, .dict [(b!"ToUnicode", .ref 6 0)], none⟩,
    ⟨6, 0, .dict rzDict, some zMap⟩] : List IndObj) := by
  have hn : n ∈ ([1, 2, 3, 4, 5, 6] : List Int) := by
    by_contra hn
    simp only [List.mem_cons, List.not_mem_nil, or_false, not_or] at hn
    obtain ⟨h1, h2, h3, h4, h5, h6⟩ := hn
    have e : ∀ m k : Int, ¬ n = m → (m = n) = False := fun m k h => by simp [eq_comm, h]
    simp [after, zEdits, Edit.apply, e _ 0 h1, e _ 0 h2, e _ 0 h3, e _ 0 h4, e _ 0 h5, e _ 0 h6] at h
  simp only [List.mem_cons, List.not_mem_nil, or_false] at hn
  rcases hn with rfl | rfl | rfl | rfl | rfl | rfl <;>
  · simp [after, zEdits, Edit.apply] at h
    subst h
    simp

theorem zEdits_streams : ∀ n o, after zEdits n = some o → ∀ o', DataOf o o' → ∀ data, o'.stream = some data → ∃ font, newFont data = .ok font := by
  intro n o ho o' hoo data hd
  have h1 : newFont codeShown = .ok ⟨[], 1⟩ := by decide +kernel
  have h2 : newFont twoCodes = .ok ⟨[(0, 1, b!"A")], 1⟩ := by decide +kernel
  rw [← dataOf_eq hoo] at hd
  have := zEdits_after ho
  simp only [List.mem_cons, List.not_mem_nil, or_false] at this
  rcases this with rfl | rfl | rfl | rfl | rfl | rfl
  · rw [dataOf_eq .value] at hd; cases hd
  · rw [dataOf_eq .value] at hd; cases hd
  · rw [dataOf_eq .value] at hd; cases hd
  · rw [dataOf_eq zContent_data] at hd; cases hd; exact ⟨_, h1⟩
  · rw [dataOf_eq .value] at hd; cases hd
  · rw [dataOf_eq zMap_data] at hd; cases hd; exact ⟨_, h2⟩

theorem zEdits_kids : ∀ n o, after zEdits n = some o → ∀ d ∈ dictsIn o.value, ∀ m g, d.get? b!"Kids" ≠ some (.ref m g) := by
  intro n o ho
  have key : ∀ e ∈ zEdits, ∀ o ∈ e.puts, ∀ d ∈ dictsIn o.value, (match d.get? b!"Kids" with | some (.ref _ _) => false | _ => true) = true := by decide +kernel
  intro d hd m g h
  obtain ⟨e, h1, h2, -⟩ := after_put ho
  have := key e h1 o h2 d hd
  rw [h] at this
  cases this

/-- raw.pdf has the content as it was before it was compressed. -/
example (sys : Sys) (hf : sys.input = some (fileText 1 zEdits)) (hc : ∀ h, sys.canCreate h = true) (pw : Bytes) :
    ∃ r F, (∀ f fx ft, F ≤ f → F ≤ fx → F ≤ ft → parse sys Concrete.ext (some true) f fx ft pw = r) ∧ r.outcome = .returned none ∧
      ∃ x a b, Reordered (.dict zDict) x ∧ r.out.raw = a ++ ((⟨4, 0, x, some codeShown⟩ : IndObj).toBytes ++ b!"\n" ++ b) := by
  obtain ⟨r, F, h1, h2, h3⟩ := C94_report_partial (ext := Concrete.ext) rfl rfl (root := 1) (by decide) zEdits_begins zEdits_stored zEdits_data zEdits_fit zEdits_length (v := true) hf hc zEdits_kids zEdits_streams pw
  exact ⟨r, F, h1, h2, h3 4 ⟨4, 0, .dict zDict, some zContent⟩ ⟨4, 0, .dict zDict, some codeShown⟩ rfl zContent_data⟩

/-- The page shows A, in a font whose character map is compressed too. -/
example (sys : Sys) (hf : sys.input = some (fileText 1 zEdits)) (hc : ∀ h, sys.canCreate h = true) (pw : Bytes) :
    ∃ r F, (∀ f fx ft, F ≤ f → F ≤ fx → F ≤ ft → parse sys Concrete.ext (some true) f fx ft pw = r) ∧ ∃ a b, r.out.text = a ++ (b!"A\n" ++ b) := by
  have he := zEdits_stored
  have hm := stored_means (μ := dataOf) (root := 1) he
  obtain ⟨r, F, h1, h2⟩ := C84_order_partial (v := true) (by rw [docText_updatesBy]; exact hf) hc (coded_document (ext := Concrete.ext) rfl rfl (root := 1) (by decide) zEdits_begins he zEdits_data zEdits_fit zEdits_length)
    ((rightTables_plain (updatesBy_linear 1 9 zEdits)).2 (stored_right zEdits he _ _)) (stored_trailer (by decide) zEdits (by decide) 9) (stored_first_tail he)
    (by
      refine KidsInPlace.ends fun n p hp => ?_
      rw [hm] at hp
      obtain ⟨o, ho, rfl⟩ := Option.map_eq_some_iff.1 hp
      show ∀ d ∈ dictsIn (dataOf o).value, _
      rw [(dataOf_keeps o).2.2]
      exact zEdits_kids n o ho) (by
      intro n p hp
      rw [hm] at hp
      obtain ⟨o, ho, rfl⟩ := Option.map_eq_some_iff.1 hp
      obtain ⟨e, k1, k2, -⟩ := after_put ho
      exact zEdits_streams n o ho _ (dataOf_spec (zEdits_data e k1 o k2))) pw
  have hv := coded_view (root := 1) he (by
    intro n o ho
    have := zEdits_after ho
    simp only [List.mem_cons, List.not_mem_nil, or_false] at this
    rcases this with rfl | rfl | rfl | rfl | rfl | rfl <;> (rintro m g ⟨⟩))
  have hst : (fun n => (after zEdits n).bind fun o => (dataOf o).stream) = fun n : Int => if n = 4 then some codeShown else if n = 6 then some twoCodes else none := by
    funext n
    cases ho : after zEdits n with
    | none =>
      by_cases h4 : n = 4
      · subst h4; cases (show after zEdits 4 = some _ from rfl).symm.trans ho
      · by_cases h6 : n = 6
        · subst h6; cases (show after zEdits 6 = some _ from rfl).symm.trans ho
        · rw [if_neg h4, if_neg h6]; rfl
    | some o =>
      obtain ⟨-, -, -, hn⟩ := after_put ho
      have := zEdits_after ho
      simp only [List.mem_cons, List.not_mem_nil, or_false] at this
      rcases this with rfl | rfl | rfl | rfl | rfl | rfl <;> subst hn
      · show (dataOf _).stream = _; rw [dataOf_eq .value]; rfl
      · show (dataOf _).stream = _; rw [dataOf_eq .value]; rfl
      · show (dataOf _).stream = _; rw [dataOf_eq .value]; rfl
      · show (dataOf _).stream = _; rw [dataOf_eq zContent_data]; rfl
      · show (dataOf _).stream = _; rw [dataOf_eq .value]; rfl
      · show (dataOf _).stream = _; rw [dataOf_eq zMap_data]; rfl
  rw [hst] at hv
  have e1 : (dataOf ⟨1, 0, .dict [(b!"Type", .name b!"Catalog"), (b!"Pages", .ref 2 0)], none⟩) = _ := dataOf_eq .value
  let font := mapFont (([.ranges [(b!"\x00", b!"\x01", b!"A")], .other ⟨b!"endbfrange", []⟩] : List MapItem).flatMap MapItem.entries)
  refine ⟨r, F, h1, h2 _ hv 1 _ (by rw [hm]; rfl) [(b!"Type", .name b!"Catalog"), (b!"Pages", .ref 2 0)] (by
      show _ ∈ dictsOf (dataOf _)
      rw [e1]; exact List.mem_singleton.2 rfl)
    [[(b!"Kids", .arr [.ref 3 0])], [(b!"Contents", .ref 4 0), (b!"Resources", .dict [(b!"Font", .dict [(b!"F", .ref 5 0)])])]] b!"A\n"
    ⟨[3], .visit (below := []) (rest := []) (by simp) .done .done, rfl⟩
    (.cons (l := []) (t := b!"A\n") (fonts := fun _ => none) (fun k => ?_) .nil
      (.cons (l := b!"A\n") (t := []) (fonts := fun k => if k = b!"F" then some font else none) (fun k => ?_) (.cons (l := b!"A\n") (t := []) ?_ .nil) .nil))⟩
  · refine Eq.mpr (if_neg ?_) rfl
    show ¬ k ∈ Assoc.keys ([] : Dict)
    simp [Assoc.keys]
  · by_cases hk : k = b!"F"
    · subst hk
      refine Eq.mpr (if_pos ?_) ⟨_, twoCodes_text, rfl⟩
      show b!"F" ∈ Assoc.keys ([(b!"F", .ref 5 0)] : Dict)
      simp [Assoc.keys]
    · refine Eq.mpr (if_neg ?_) (if_neg hk)
      show ¬ k ∈ Assoc.keys ([(b!"F", .ref 5 0)] : Dict)
      simp [Assoc.keys, hk]
  · exact ⟨[.block [⟨b!"Tf", [.name b!"F", .num (intNum false 1)]⟩, ⟨b!"Tj", [.str [0]]⟩]], _, codeShown, [], (List.append_nil _).symm,
      .cons (Piece.Cmds.block (cs := [⟨b!"Tf", [.name b!"F", .num (intNum false 1)]⟩, ⟨b!"Tj", [.str [0]]⟩]) (a := []) (b := [])) .nil,
      (by intro p hp; rw [List.mem_singleton] at hp; subst hp; intro c hc; simp only [List.mem_cons, List.not_mem_nil, or_false] at hc; rcases hc with rfl | rfl <;> decide),
      codeShown_cmds, ⟨[], [], rfl, .nil, .inl rfl⟩,
      .block (l := b!"A\n") (t := []) (.font rfl (.line (b := [0]) (l := b!"A") (t := []) (by decide) ⟨[[0]], [], by decide, by decide, by decide, by decide⟩ .nil)) .nil⟩

end Pdf.Props
