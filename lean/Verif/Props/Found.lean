import Verif.Props.Whole
/-!
C78: documents whose offsets are wrong.
-/

namespace Pdf.Props
open Pdf Pdf.Spec St

/-- Revisions with the same objects that list the same numbers as in use. Offsets, trailers and texts may differ. -/
inductive SameRevisions : List Revision → List Revision → Prop
  | nil : SameRevisions [] []
  | cons {r r' rs rs'} : (∀ n, (lastWith r.parts n).map (·.obj) = (lastWith r'.parts n).map (·.obj)) → (∀ n, (lastFor r.entries n).map (·.typ) = (lastFor r'.entries n).map (·.typ)) →
      SameRevisions rs rs' → SameRevisions (r :: rs) (r' :: rs')

/-- Two documents with the same objects, whose sections list the same numbers as in use. One of them may be linearized and
the other not. -/
def SameObjects (us us' : List Update) : Prop := SameRevisions (revisions us) (revisions us')

theorem lastWith_same {ps ps' : List Part} (h : ps.map (·.obj) = ps'.map (·.obj)) (n : Int) : (lastWith ps n).map (·.obj) = (lastWith ps' n).map (·.obj) := by
  have : ∀ l : List Part, (lastWith l n).map (·.obj) = (l.map (·.obj)).reverse.find? fun o => o.number = n := by
    intro l
    rw [lastWith, ← List.map_reverse, List.find?_map]
    rfl
  rw [this, this, h]

theorem SameRevisions.entry {rs rs' : List Revision} (h : SameRevisions rs rs') (n : Int) : (lastFor (rs.flatMap (·.entries)) n).map (·.typ) = (lastFor (rs'.flatMap (·.entries)) n).map (·.typ) := by
  induction h with
  | nil => rfl
  | @cons r r' rs rs' _ h2 _ ih =>
    rw [List.flatMap_cons, lastFor_append, List.flatMap_cons, lastFor_append]
    have h2 := h2 n
    generalize lastFor (rs.flatMap (·.entries)) n = a at ih
    generalize lastFor (rs'.flatMap (·.entries)) n = a' at ih
    generalize lastFor r.entries n = b at h2
    generalize lastFor r'.entries n = b' at h2
    cases a <;> cases a' <;> cases b <;> cases b' <;> simp_all

theorem SameRevisions.meant {rs rs' : List Revision} (h : SameRevisions rs rs') (n : Int) : (meantIn rs n).map (·.obj) = (meantIn rs' n).map (·.obj) := by
  induction h with
  | nil => rfl
  | @cons r r' rs rs' h1 h2 h3 ih =>
    have he := h3.entry n
    by_cases hn : lastFor (rs.flatMap (·.entries)) n = none
    · have hn' : lastFor (rs'.flatMap (·.entries)) n = none := by
        rw [hn] at he
        exact Option.map_eq_none_iff.1 he.symm
      rw [meant_new hn, meant_new hn']
      have h2 := h2 n
      have : ((lastFor r.entries n).any fun x => x.typ = 1) = ((lastFor r'.entries n).any fun x => x.typ = 1) := by
        generalize lastFor r.entries n = b at h2
        generalize lastFor r'.entries n = b' at h2
        cases b <;> cases b' <;> simp_all
      rw [this]
      split
      · exact h1 n
      · rfl
    · have hn' : lastFor (rs'.flatMap (·.entries)) n ≠ none := by
        intro hn'
        rw [hn'] at he
        exact hn (Option.map_eq_none_iff.1 he)
      rw [meant_old hn, meant_old hn']
      exact ih

theorem SameObjects.meant {us us' : List Update} (h : SameObjects us us') (n : Int) : (meant us n).map (·.obj) = (Spec.meant us' n).map (·.obj) := SameRevisions.meant h n

/-- **C78** (part: offsets that are wrong lead nowhere, see `C78_false`; no first object of an update has a key of the
trailers or /Encrypt) A document whose `startxref` and /Prev offsets are wrong or missing, and whose tables may have wrong
offsets, is read as it is meant. -/
theorem C78_meant_partial {P : Bytes} {us : List Update} {ext : Ext} (hU : Updates ext.toCodecs (fun m => ∀ x, m = some x → Lost (docText P us) x) P.length none us) (hF : Findable (docText P us) P.length us)
    (hn : ∀ u, us.head? = some u → u.parts ≠ []) (hk : ∀ d, FirstDict us.tail d → ∀ k, trailerFor us k ≠ none → d.get? k = none) (hh : Lacks b!"obj" P) (hs : ∀ a b, P = a ++ [b] → ¬ IsDec b) (ho : NoOpen P)
    (hw : ∀ a b, docText P us = a ++ (b!"xref" ++ b) → a.length ∈ xrefWords P.length us) (hl : (docText P us).length < 2 ^ 63) (hr : RightTables (docText P us) P.length us)
    (henc : trailerFor us b!"Encrypt" = none) (henc' : ∀ d, FirstDict us.tail d → d.get? b!"Encrypt" = none) (verbose : Option Bool) (ord : Order) (f fx : Nat) (hfx : us.length ≤ fx) (pw : Bytes) :
    ∃ ls, load ⟨docText P us, ext, verbose⟩ ord (f + 1) fx pw LS.init = .ok (none, ls) ∧ (∀ k v, trailerFor us k = some v → ls.trailer.get? k = some v) ∧
      (∀ n p, meant us n = some p → ∀ f' s, ∃ s', getObject (ls.env ⟨docText P us, ext, verbose⟩) f' n s = .ok (p.obj, s') ∧ s'.log = s.log ++ p.notes) ∧
      (∀ n, meant us n = none → ∀ f' s, getObject (ls.env ⟨docText P us, ext, verbose⟩) f' n s = .ok (⟨n, 0, .null, none⟩, s)) := by
  have hd : Document ext.toCodecs P us := ⟨.found hU hF hk, hn, hh, hs, ho, hw, hl⟩
  obtain ⟨ls, h1, h2, h3⟩ := C74_meant_partial hd hr henc henc' verbose ord f fx hfx pw
  obtain ⟨ls', h4, h5, -⟩ := C74_read_partial hd henc henc' verbose ord f fx hfx pw
  rw [h1] at h4
  cases h4
  exact ⟨ls, h1, h5, h2, h3⟩

/-- **C78** (part) Two documents with the same objects whose sections list the same numbers as in use are read alike,
whatever the offsets in them. -/
theorem C78_same_partial {P P' : Bytes} {us us' : List Update} {ext : Ext} (hd : Document ext.toCodecs P us) (hd' : Document ext.toCodecs P' us') (hr : RightTables (docText P us) P.length us)
    (hr' : RightTables (docText P' us') P'.length us') (h : SameObjects us us') (henc : ∀ us0 ∈ [us, us'], trailerFor us0 b!"Encrypt" = none ∧ ∀ d, FirstDict us0.tail d → d.get? b!"Encrypt" = none)
    (verbose : Option Bool) (ord : Order) (f fx : Nat) (hfx : us.length ≤ fx) (hfx' : us'.length ≤ fx) (pw : Bytes) :
    ∃ ls ls', load ⟨docText P us, ext, verbose⟩ ord (f + 1) fx pw LS.init = .ok (none, ls) ∧ load ⟨docText P' us', ext, verbose⟩ ord (f + 1) fx pw LS.init = .ok (none, ls') ∧
      ∀ n f' s s', ∃ o t t', getObject (ls.env ⟨docText P us, ext, verbose⟩) f' n s = .ok (o, t) ∧ getObject (ls'.env ⟨docText P' us', ext, verbose⟩) f' n s' = .ok (o, t') := by
  obtain ⟨ls, h1, h2, h3⟩ := C74_meant_partial hd hr (henc us (by simp)).1 (henc us (by simp)).2 verbose ord f fx hfx pw
  obtain ⟨ls', h1', h2', h3'⟩ := C74_meant_partial hd' hr' (henc us' (by simp)).1 (henc us' (by simp)).2 verbose ord f fx hfx' pw
  refine ⟨ls, ls', h1, h1', fun n f' s s' => ?_⟩
  have hm := h.meant n
  cases ha : meant us n with
  | none =>
    rw [ha] at hm
    have hb : meant us' n = none := Option.map_eq_none_iff.1 hm.symm
    exact ⟨_, _, _, h3 n ha f' s, h3' n hb f' s'⟩
  | some p =>
    rw [ha] at hm
    obtain ⟨p', hb, e⟩ := Option.map_eq_some_iff.1 hm.symm
    obtain ⟨t, k1, -⟩ := h2 n p ha f' s
    obtain ⟨t', k2, -⟩ := h2' n p' hb f' s'
    rw [e] at k2
    exact ⟨_, _, _, k1, k2⟩

set_option maxRecDepth 100000 in
/-- The hypotheses of `C78_meant_partial` for a document with a line in front of it. -/
example (cd : Codecs) : (Updates cd (fun m => ∀ x, m = some x → Lost (docText shiftedHead [update1, update3 171]) x) shiftedHead.length none [update1, update3 171] ∧
    Findable (docText shiftedHead [update1, update3 171]) shiftedHead.length [update1, update3 171] ∧
    ∀ d, FirstDict [update3 171] d → ∀ k, trailerFor [update1, update3 171] k ≠ none → d.get? k = none) ∧
    RightTables (docText shiftedHead [update1, update3 171]) shiftedHead.length [update1, update3 171] ∧ trailerFor [update1, update3 171] b!"Encrypt" = none ∧
    trailerFor [update1, update3 171] b!"Root" = some (.ref 1 0) ∧
    (meant [update1, update3 171] 1).map (·.obj) = some ⟨1, 0, .dict [(b!"New", .kw b!"true")], none⟩ ∧ (meant [update1, update3 171] 2).isNone :=
  ⟨shifted_updates cd, (rightTables_plain (by decide)).2 ⟨rightTable_dec (by decide +kernel) (by decide), rightTable_dec (by decide +kernel) (by decide), trivial⟩, by decide, by decide, by decide, by decide⟩

set_option maxRecDepth 100000 in
/-- **C78** is false for wrong offsets that lead somewhere: when `startxref` after an update has the offset of the section of
the document before it, an object that the update deletes is read. -/
theorem C78_false : ∃ (P : Bytes) (us : List Update), Updates Concrete.ext.toCodecs (fun m => ∀ x, m = some x → 0 ≤ x ∧ x < (docText P us).length) P.length none us ∧ Findable (docText P us) P.length us ∧
    RightTables (docText P us) P.length us ∧ meant us 2 = none ∧
    ∃ ls, load ⟨docText P us, Concrete.ext, some false⟩ default 3 5 [] LS.init = .ok (none, ls) ∧
      ∃ s, getObject (ls.env ⟨docText P us, Concrete.ext, some false⟩) 3 2 PS.init = .ok (⟨2, 0, .str b!"old", none⟩, s) := by
  refine ⟨docHead, [update1, update2 b!"New" [0, 6, 3]], .cons (update1_at _ (.inl (by decide))) (.inl (by decide)) (.last (update2_at _ (by decide) (by decide) (by decide) (by decide) (by decide) (by decide) (by decide)
    (.inr fun x h => ?_) (.inl rfl) (by decide)) (by decide)), ?_, (rightTables_plain (by decide)).2 ⟨rightTable_dec (by decide) (by decide), rightTable_dec (by decide) (by decide), trivial⟩, by decide, ?_⟩
  · cases h; decide
  · intro u hu subs w0 w1 w2 here x he
    simp only [List.mem_cons, List.not_mem_nil, or_false] at hu
    rcases hu with rfl | rfl <;> cases he
  have h : (match load ⟨docText docHead [update1, update2 b!"New" [0, 6, 3]], Concrete.ext, some false⟩ default 3 5 [] LS.init with
      | .ok (none, ls) => (match getObject (ls.env ⟨docText docHead [update1, update2 b!"New" [0, 6, 3]], Concrete.ext, some false⟩) 3 2 PS.init with
        | .ok (o, _) => decide (o = ⟨2, 0, .str b!"old", none⟩) | _ => false)
      | _ => false) = true := by decide +kernel
  generalize load ⟨docText docHead [update1, update2 b!"New" [0, 6, 3]], Concrete.ext, some false⟩ default 3 5 [] LS.init = r at h ⊢
  match r, h with
  | .ok (none, ls), h =>
    refine ⟨ls, rfl, ?_⟩
    dsimp only at h
    generalize getObject (ls.env ⟨docText docHead [update1, update2 b!"New" [0, 6, 3]], Concrete.ext, some false⟩) 3 2 PS.init = q at h ⊢
    match q, h with
    | .ok (o, s), h => exact ⟨s, by rw [of_decide_eq_true h]⟩

set_option maxRecDepth 100000 in
/-- The hypotheses of `C78_same_partial`: a document, and the same with a line in front of it. -/
example (cd : Codecs) : Document cd docHead [update1, update3 166] ∧ Document cd shiftedHead [update1, update3 171] ∧ RightTables (docText docHead [update1, update3 166]) docHead.length [update1, update3 166] ∧
    RightTables (docText shiftedHead [update1, update3 171]) shiftedHead.length [update1, update3 171] ∧ SameObjects [update1, update3 166] [update1, update3 171] ∧
    docText shiftedHead [update1, update3 171] = b!"junk\n" ++ docText docHead [update1, update3 166] := by
  refine ⟨stream_document cd, shifted_document cd, (rightTables_plain (by decide)).2 ⟨rightTable_dec (by decide) (by decide), rightTable_dec (by decide) (by decide), trivial⟩,
    (rightTables_plain (by decide)).2 ⟨rightTable_dec (by decide +kernel) (by decide), rightTable_dec (by decide +kernel) (by decide), trivial⟩, .cons (fun _ => rfl) (fun _ => rfl) (.cons (fun _ => rfl) (fun n => ?_) .nil), by decide +kernel⟩
  have e : ∀ here, (update3 here).sect.entries = listedFields [(1, [⟨1, 137, 0⟩, ⟨0, 0, 1⟩, ⟨1, 166, 0⟩])] ++ [(3, ⟨here, 0, 1, false, false⟩)] := fun _ => rfl
  show (lastFor (update3 166).sect.entries n).map _ = (lastFor (update3 171).sect.entries n).map _
  rw [e, e, lastFor_append, lastFor_append]
  by_cases hn : n = 3
  · subst hn; rfl
  · have : ∀ x : XrefEntry, lastFor [((3 : Int), x)] n = none := fun x => by simp [lastFor, Ne.symm hn]
    rw [this, this]

end Pdf.Props
