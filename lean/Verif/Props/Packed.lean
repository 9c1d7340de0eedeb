import Verif.Props.Whole
import Verif.Spec.Packed
/-!
C80: objects in object streams.
-/

namespace Pdf.Props
open Pdf Pdf.Spec St

/-- **C80 fails** for all documents: an object in an object stream is read as null, whatever it is. -/
theorem C80_null {P : Bytes} {us : List Update} {ext : Ext} (hd : Document ext.toCodecs P us) (henc : trailerFor us b!"Encrypt" = none)
    (henc' : ∀ d, FirstDict us.tail d → d.get? b!"Encrypt" = none) (verbose : Option Bool) (ord : Order) (f fx : Nat) (hfx : us.length ≤ fx) (pw : Bytes) :
    ∃ ls, load ⟨docText P us, ext, verbose⟩ ord (f + 1) fx pw LS.init = .ok (none, ls) ∧
      ∀ n o, InStream us n o → ∀ f' s, getObject (ls.env ⟨docText P us, ext, verbose⟩) f' n s = .ok (⟨n, 0, .null, none⟩, s) := by
  obtain ⟨ls, h1, -, -, -, h2, -⟩ := C74_read_partial hd henc henc' verbose ord f fx hfx pw
  refine ⟨ls, h1, ?_⟩
  rintro n o ⟨x, p, D, data, objs, k1, k2, -⟩
  exact h2 n x k1 (by rw [k2]; decide)

/-! ### A document with an object stream -/

/-- The link. -/
def packed : Obj := .dict [(b!"S", .name b!"URI"), (b!"URI", .str b!"x")]

/-- Object 2, a link, is in it. -/
def packStream : IndObj where
  number := 4
  generation := 0
  value := .dict [(b!"Type", .name b!"ObjStm"), (b!"N", .num (intNum false 1)), (b!"First", .num (intNum false 4))]
  stream := some (b!"2 0 " ++ packed.toBytes)

def packPart : Part := ⟨packStream, [], packStream.toBytes ++ b!"\n"⟩

def catalogPart : Part := ⟨⟨1, 0, .dict [(b!"A", .ref 2 0)], none⟩, [], (⟨1, 0, .dict [(b!"A", .ref 2 0)], none⟩ : IndObj).toBytes ++ b!"\n"⟩

/-- The cross reference stream, object 3. -/
def packXref : IndObj where
  number := 3
  generation := 0
  value := .dict [(b!"Type", .name b!"XRef"), (b!"Index", .arr [.num (intNum false 1), .num (intNum false 4)]),
    (b!"W", .arr [.num (intNum false 1), .num (intNum false 2), .num (intNum false 1)]), (b!"Root", .ref 1 0)]
  stream := some [1, 0, 9, 0, 2, 0, 4, 0, 1, 0, 125, 0, 1, 0, 38, 0]

def packXrefPart : Part := ⟨packXref, [], packXref.toBytes ++ b!"\n"⟩

def packUpdate : Update where
  parts := [catalogPart, packPart, packXrefPart]
  sect := .stream [(1, [⟨1, 9, 0⟩, ⟨2, 4, 0⟩, ⟨1, 125, 0⟩, ⟨1, 38, 0⟩])] 1 2 1 125 packXrefPart
  back := b!"startxref\n125\n%%EOF"

set_option maxRecDepth 100000 in
theorem catalog_text (cd : Codecs) : ObjectText cd catalogPart.obj catalogPart.notes catalogPart.text := by
  have h : Reprintable catalogPart.obj := by
    refine ⟨by decide, by decide, .dict (.cons (nameText_plain _ (by decide)) (.ref (n := 2) (g := 0) (by decide) (by decide)) .nil) (by decide), (lacks_dec (by decide +kernel)).noHeader, ?_⟩
    rintro d ⟨⟩
  exact h.text cd

set_option maxRecDepth 100000 in
theorem pack_text (cd : Codecs) : ObjectText cd packPart.obj packPart.notes packPart.text := by
  have h : Reprintable packStream := by
    refine ⟨by decide, by decide, .dict (.cons (nameText_plain _ (by decide)) (.name (nameText_plain _ (by decide)))
      (.cons (nameText_plain _ (by decide)) (.int (by decide)) (.cons (nameText_plain _ (by decide)) (.int (by decide)) .nil))) (by decide), (lacks_dec (by decide +kernel)).noHeader, ?_⟩
    rintro d ⟨⟩
    exact ⟨_, rfl, by decide, by decide, (fun a b h => by cases h), by decide +kernel, (lacks_dec (by decide)).noHeader, lacks_dec (by decide)⟩
  exact h.text cd

set_option maxRecDepth 100000 in
theorem packXref_text (cd : Codecs) : ObjectText cd packXrefPart.obj packXrefPart.notes packXrefPart.text := by
  have h : Reprintable packXref := by
    refine ⟨by decide, by decide, .dict (.cons (nameText_plain _ (by decide)) (.name (nameText_plain _ (by decide)))
      (.cons (nameText_plain _ (by decide)) (.arr (.cons (.int (by decide)) (.cons (.int (by decide)) .nil)))
      (.cons (nameText_plain _ (by decide)) (.arr (.cons (.int (by decide)) (.cons (.int (by decide)) (.cons (.int (by decide)) .nil))))
      (.cons (nameText_plain _ (by decide)) (.ref (n := 1) (g := 0) (by decide) (by decide)) .nil)))) (by decide), (lacks_dec (by decide +kernel)).noHeader, ?_⟩
    rintro d ⟨⟩
    exact ⟨_, rfl, by decide, by decide, (fun a b h => by cases h), by decide +kernel, (lacks_dec (by decide)).noHeader, lacks_dec (by decide)⟩
  exact h.text cd

set_option maxRecDepth 100000 in
theorem pack_document (cd : Codecs) : Document cd docHead [packUpdate] where
  nonempty := by rintro u ⟨⟩; decide
  sections := by
    have hlen : docHead.length + (joined [catalogPart, packPart]).length = 125 := by decide +kernel
    refine .linked (.last (r := []) ⟨?_, ?_, ?_, lacks_dec (show hasWord b!"obj" ([] ++ b!"startxref\n125\n%%EOF") = false by decide), (fun p h => by cases h), (fun _ => by decide), fun h => absurd rfl h⟩ (by decide))
    · intro p hp
      simp only [packUpdate, List.mem_cons, List.not_mem_nil, or_false] at hp
      rcases hp with rfl | rfl | rfl
      · exact catalog_text cd
      · exact pack_text cd
      · exact packXref_text cd
    · refine .stream (x := packXrefPart) (ps := [catalogPart, packPart]) (extra := []) (more := []) (by rw [hlen]; rfl) rfl ?_ (by decide) rfl (by decide) (.inl (by decide +kernel)) (by decide +kernel) (by decide) (by decide) (by decide)
        (by decide) ?_ (packXref_text cd)
      · intro p hp
        simp only [List.mem_cons, List.not_mem_nil, or_false] at hp
        rcases hp with rfl | rfl
        · intro d hd; cases hd; decide
        · intro d hd; cases hd; decide
      · intro p hp
        cases List.mem_singleton.1 hp
        refine ⟨by decide, fun f hf => ?_⟩
        simp only [List.mem_cons, List.not_mem_nil, or_false] at hf
        rcases hf with rfl | rfl | rfl | rfl <;> (unfold Fits; decide)
    · have := BackText.mk (w := b!"\n") (w' := b!"\n") (r := []) (ds := [1, 2, 5]) (by decide) (by decide) (by decide) (by decide) (by decide)
      exact ⟨125, this, .inl (by decide +kernel)⟩
  head := (updated_document cd).head
  start := (updated_document cd).start
  noOpen := (updated_document cd).noOpen
  words := words_dec (by decide +kernel)
  short := by decide +kernel

set_option maxRecDepth 100000 in
theorem packed_inStream : InStream [packUpdate] 2 packed := by
  refine ⟨⟨4, 0, 2, true, false⟩, packPart, _, _, [(2, packed)], by decide +kernel, rfl, rfl, rfl, rfl, ⟨by decide +kernel, by decide +kernel, [(2, 0)], b!"2 0 ", packed.toBytes, by decide, by decide +kernel, ?_, rfl, ?_⟩, by decide, rfl⟩
  · exact .cons (w := []) (ds := [2]) (w' := b!" ") (gs := [0]) (t := b!" ") .nil (by decide) (by decide) (blank_of_white (by decide)) (by decide) (by decide) (by decide) (by rintro b t ⟨⟩; decide) (.nil (blank_of_white (by decide)))
  · intro i n o h
    cases i with
    | zero =>
      cases h
      refine ⟨0, packed.toBytes, [], [], rfl, by simp, plain_objAt ?_ [] (fun b t h => by cases h) ?_⟩
      · exact .dict (.cons (nameText_plain _ (by decide)) (.name (nameText_plain _ (by decide))) (.cons (nameText_plain _ (by decide)) (.str (strText_plain (by decide))) .nil)) (by decide)
      · rintro ⟨w, gs, w', r, e, -⟩
        have := congrArg List.length e
        simp at this
    | succ i => simp at h

set_option maxRecDepth 100000 in
/-- **C80 fails**, for a whole document: the action of its catalog, a link, is in an object stream; it is read as null, and is not
in the report. -/
theorem C80_false : ∃ (P : Bytes) (us : List Update), Document Concrete.ext.toCodecs P us ∧ RightTables (docText P us) P.length us ∧ trailerFor us b!"Encrypt" = none ∧
    InStream us 2 (.dict [(b!"S", .name b!"URI"), (b!"URI", .str b!"x")]) ∧ (meant us 1).map (·.obj.value) = some (.dict [(b!"A", .ref 2 0)]) ∧
    (let r := parse { input := some (docText P us), canCreate := fun _ => true, outExists := false } Concrete.ext (some false) 3 3 3 []
     r.outcome = .returned none ∧ r.out.urls = []) := by
  refine ⟨docHead, [packUpdate], pack_document _, (rightTables_plain (by decide)).2 ⟨rightTable_dec (by decide +kernel) (by decide), trivial⟩, by decide, packed_inStream, by decide, ?_⟩
  decide +kernel

end Pdf.Props
