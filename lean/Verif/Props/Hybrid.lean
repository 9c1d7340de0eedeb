import Verif.Props.Packed
import Verif.Spec.Hybrid
/-!
C83: hybrid-reference files.
-/

namespace Pdf.Props
open Pdf Pdf.Spec St

/-- **C83 fails** for all files: an object that the table of a hybrid file hides is read as null, whatever the cross reference stream says. -/
theorem C83_null {cfg : Cfg} {lines : List (Nat × List Line)} {fields : List (Nat × List Field)} {o : IndObj} (hh : Hybrid cfg.ext.toCodecs cfg.file lines fields) (ho : Hidden cfg.ext.toCodecs cfg.file lines fields o)
    {ord : Order} {f fx : Nat} {pw : Bytes} {s0 ls : LS} {r : Option EncErr} (h : load cfg ord f fx pw s0 = .ok (r, ls)) (f' : Nat) (s : PS) :
    getObject (ls.env cfg) f' o.number s = .ok (⟨o.number, 0, .null, none⟩, s) := by
  obtain ⟨off, front, dict, rest, trailer, notes, m, x, D, w0, w1, w2, notes', T, rest', h1, h2, h3, h4, h5, h6, h7, -⟩ := hh.text
  obtain ⟨l, k1, k2⟩ := ho.free
  have hp : ∃ p, PrevIs (dictOf trailer) p := by
    cases hv : (dictOf trailer).get? b!"Prev" with
    | none => exact ⟨_, .absent hv⟩
    | some v =>
      cases hn : v.asNum? with
      | none => exact ⟨_, .other hv (fun n g e => h7 n g (by rw [hv, e])) hn⟩
      | some y => cases v <;> first | exact ⟨_, .num hv⟩ | cases hn
  obtain ⟨p, hp⟩ := hp
  obtain ⟨e, e1, -, e2⟩ := (C24_load h h1 h2 h4 h6 h3 h5 hp).1 _ _ k1
  refine C16_null _ f' _ (fun e' he' => ?_) s
  cases e1.symm.trans he'
  rw [e2, k2]
  decide

/-! ### A hybrid file -/

theorem no_refTail_name (z : Bytes) : ¬ RefTail (47 :: z) := by
  rintro ⟨w, gs, w', r, e, hw, -, hne, hd, -⟩
  have key : ∀ x < 10, decDigit x ≠ 47 := by decide
  cases hw with
  | nil =>
    cases gs with
    | nil => exact hne rfl
    | cons g gs => exact key g (hd g (by simp)) (List.cons.inj e).1.symm
  | ws h _ =>
    have := (List.cons.inj e).1
    subst this
    revert h; decide
  | comment _ _ _ => exact absurd (List.cons.inj e).1 (by decide)

/-- Object 2, a link. -/
def hybridLink : IndObj := ⟨2, 0, packed, none⟩

/-- The cross reference stream, object 3, lists it. -/
def hybridXref : IndObj where
  number := 3
  generation := 0
  value := .dict [(b!"Type", .name b!"XRef"), (b!"Index", .arr [.num (intNum false 2), .num (intNum false 1)]),
    (b!"W", .arr [.num (intNum false 1), .num (intNum false 1), .num (intNum false 1)])]
  stream := some [1, 38, 0]

def hybridTable : Bytes := b!"xref\n0 4\n0 9 f \n9 0 n \n0 0 f \n74 0 n \ntrailer\n"

def hybridFile : Bytes := docHead ++ (catalogPart.text ++ ((hybridLink.toBytes ++ b!"\n") ++ ((hybridXref.toBytes ++ b!"\n") ++ (hybridTable ++ b!"<</XRefStm 74/Root 1 0 R>>\nstartxref\n149\n%%EOF"))))

set_option maxRecDepth 100000 in
theorem hybrid_hybrid (cd : Codecs) : Hybrid cd hybridFile [(0, [⟨0, 9, false⟩, ⟨9, 0, true⟩, ⟨0, 0, false⟩, ⟨74, 0, true⟩])] [(2, [⟨1, 38, 0⟩])] := by
  refine ⟨149, hybridTable, b!"/XRefStm 74/Root 1 0 R>>", b!"\nstartxref\n149\n%%EOF", [(b!"XRefStm", .num (intNum false 74)), (b!"Root", .ref 1 0)], [], intNum false 74, hybridXref, _, 1, 1, 1, [], hybridXref.toBytes ++ b!"\n",
    hybridFile.drop 149, ?_, by decide, by decide +kernel, ?_, by decide, ?_, by intro n g; rw [show (dictOf _).get? _ = none from rfl]; simp, rfl, by decide, by decide +kernel, ?_, rfl, rfl, rfl, rfl, rfl, ?_⟩
  · refine ⟨hybridFile.take 222, b!"\n", b!"\n", [], [1, 4, 9], by decide +kernel, by decide, by decide, by decide, by decide, by decide +kernel, ?_⟩
    intro x y h
    have := congrArg List.length h
    simp at this
  · have sp : Gap [32] := gap_of (by decide)
    have nl : Gap [10] := gap_of (by decide)
    have sn : Gap [32, 10] := gap_of (by decide)
    exact .mk (w := []) (w1 := [32, 10]) (w2 := [10]) .nil (.cons (w := [10]) (w1 := [32]) (ls := [⟨0, 9, false⟩, ⟨9, 0, true⟩, ⟨0, 0, false⟩, ⟨74, 0, true⟩]) nl (.mk (ds := [0]) (by decide) (by decide) (by decide)) sp (.mk (ds := [4]) (by decide) (by decide) (by decide))
      (.cons (w := [10]) (w1 := [32]) (w2 := [32]) (u := false) nl (.mk (ds := [0]) (by decide) (by decide) (by decide)) sp (.mk (ds := [9]) (by decide) (by decide) (by decide)) sp
      (.cons (w := [32, 10]) (w1 := [32]) (w2 := [32]) (u := true) sn (.mk (ds := [9]) (by decide) (by decide) (by decide)) sp (.mk (ds := [0]) (by decide) (by decide) (by decide)) sp
      (.cons (w := [32, 10]) (w1 := [32]) (w2 := [32]) (u := false) sn (.mk (ds := [0]) (by decide) (by decide) (by decide)) sp (.mk (ds := [0]) (by decide) (by decide) (by decide)) sp
      (.cons (w := [32, 10]) (w1 := [32]) (w2 := [32]) (u := true) sn (.mk (ds := [7, 4]) (by decide) (by decide) (by decide)) sp (.mk (ds := [0]) (by decide) (by decide) (by decide)) sp .nil)))) (by decide) .nil) sn nl.1
  · exact .cons (w := []) (kt := b!"XRefStm") (w' := b!" ") (t := b!"74") (u := b!"/Root 1 0 R>>") (e := []) (e' := []) (e'' := []) .nil (nameText_plain _ (by decide)) (blank_of_white (by decide))
      (by rintro b t ⟨⟩; decide) (.int (neg := false) (sg := []) (ds := [7, 4]) .none (by decide) (by decide) (by decide) (by rintro b t ⟨⟩; decide) (by rintro u ⟨⟩) (no_refTail_name _))
      (.cons (w := []) (kt := b!"Root") (w' := b!" ") (t := b!"1 0 R") (u := b!">>") (e := []) (e' := []) (e'' := []) .nil (nameText_plain _ (by decide)) (blank_of_white (by decide)) (by rintro b t ⟨⟩; decide)
        (.ref (ds := [1]) (w := b!" ") (gs := [0]) (w' := b!" ") (by decide) (by decide) (by decide) (blank_of_white (by decide)) (by decide) (by decide) (by decide) (by decide)
        (blank_of_white (by decide)) (by decide) (by rintro b t ⟨⟩; decide)) (.nil (w := []) .nil))
  · have h : Reprintable hybridXref := by
      refine ⟨by decide, by decide, .dict (.cons (nameText_plain _ (by decide)) (.name (nameText_plain _ (by decide)))
        (.cons (nameText_plain _ (by decide)) (.arr (.cons (.int (by decide)) (.cons (.int (by decide)) .nil)))
        (.cons (nameText_plain _ (by decide)) (.arr (.cons (.int (by decide)) (.cons (.int (by decide)) (.cons (.int (by decide)) .nil)))) .nil))) (by decide), (lacks_dec (by decide +kernel)).noHeader, ?_⟩
      rintro d ⟨⟩
      exact ⟨_, rfl, by decide, by decide, (fun a b h => by cases h), by decide +kernel, (lacks_dec (by decide)).noHeader, lacks_dec (by decide)⟩
    exact h.text cd
  · intro p hp f hf
    cases List.mem_singleton.1 hp
    cases List.mem_singleton.1 hf
    unfold Fits; decide

set_option maxRecDepth 100000 in
theorem hybrid_hidden (cd : Codecs) : Hidden cd hybridFile [(0, [⟨0, 9, false⟩, ⟨9, 0, true⟩, ⟨0, 0, false⟩, ⟨74, 0, true⟩])] [(2, [⟨1, 38, 0⟩])] hybridLink := by
  refine ⟨⟨⟨0, 0, 0, true, false⟩, by decide, rfl⟩, ⟨38, 0, 1, true, false⟩, [], hybridLink.toBytes ++ b!"\n", hybridFile.drop 74, by decide, rfl, rfl, by decide, by decide +kernel, ?_⟩
  have h : Reprintable hybridLink := by
    refine ⟨by decide, by decide, .dict (.cons (nameText_plain _ (by decide)) (.name (nameText_plain _ (by decide))) (.cons (nameText_plain _ (by decide)) (.str (strText_plain (by decide))) .nil)) (by decide),
      (lacks_dec (by decide +kernel)).noHeader, ?_⟩
    rintro d ⟨⟩
  exact h.text cd

set_option maxRecDepth 100000 in
/-- **C83 fails**, for a whole file: the action of its catalog, a link, is listed by the cross reference stream that the trailer names, and is not in the report. -/
theorem C83_false : ∃ (file : Bytes) (lines : List (Nat × List Line)) (fields : List (Nat × List Field)), Hybrid Concrete.ext.toCodecs file lines fields ∧
    Hidden Concrete.ext.toCodecs file lines fields ⟨2, 0, .dict [(b!"S", .name b!"URI"), (b!"URI", .str b!"x")], none⟩ ∧
    (let r := parse { input := some file, canCreate := fun _ => true, outExists := false } Concrete.ext (some false) 3 3 3 []
     r.outcome = .returned none ∧ r.out.urls = []) := by
  refine ⟨hybridFile, _, _, hybrid_hybrid _, hybrid_hidden _, ?_⟩
  decide +kernel

end Pdf.Props
