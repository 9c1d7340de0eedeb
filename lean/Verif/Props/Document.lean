import Verif.Lemmas.DocLoad
import Verif.Model.Concrete
/-!
C74: documents with incremental updates.
-/

namespace Pdf.Props
open Pdf Pdf.Spec St

/-- **C25** An entry at whose offset any object header stands is redirected to the last marker of its object; only the
offset changes. -/
theorem C25_header {cfg : Cfg} {ord : Order} {f fx : Nat} {pw : Bytes} {s0 s1 s2 : LS} {r : Option EncErr} (h : load cfg ord f fx pw s0 = .ok (r, s2)) (hs : SectionsLoaded cfg f fx s0 s1)
    {n : Int} {e : XrefEntry} (he : s1.xref.get? n = some e) {pre : Bytes} {gs : List Nat} (hl : LastMarker cfg.file pre gs n) {off : Nat} (hoff : e.offset = off)
    {ds' gs' : List Nat} {hd t : Bytes} (hh : HeaderText ds' gs' hd) (ht : Stops t) (hin : cfg.file.drop off = hd ++ t) :
    ∃ e', s2.xref.get? n = some e' ∧ e'.offset = pre.length ∧ e'.generation = e.generation ∧ e'.typ = e.typ := by
  obtain ⟨-, objs, f1, f2, -, -, f5⟩ := load_entry h hs
  obtain ⟨o, ho, h1, h2, h3⟩ := last_found hl f1 f2
  obtain ⟨e', ps, h4, h5⟩ := f5 n o e ho he
  refine ⟨e', h4, ?_⟩
  have hc : (readObjectHeader cfg.file (seek ps e.offset)).1.2.2 = true ∨ (readObjectHeader cfg.file (seek ps e.offset)).1.1 ≠ n := by
    left
    obtain ⟨n', g', -, -, k, -⟩ := readObjectHeader_text hh ht cfg.file (seek ps (off : Int)) (by rw [seek_pos]; exact hin)
    rw [hoff, k]
  rw [repaired, if_pos hc] at h5
  exact ⟨h5.1.trans h1, h5.2⟩

theorem lastPlaced_none {rd : Reading} {P : Bytes} {us : List Update} (hd : Document rd P us) {n : Int} (h : lastPlaced (placed P.length us) n = none) {pre : Bytes} {ds : List Nat}
    (hl : LooseAt (docText P us) pre ds) : ¬ IsInt64Of (Spec.decVal ds) n := by
  intro hi
  rw [hd.text] at hl
  obtain ⟨ps1, p, ps2, e1, -, e3⟩ := hd.made.loose hl
  obtain ⟨ds', gs', -, l1, -, l2, -⟩ := hd.made.marker e1
  have hq : p.obj.number = n := by
    rw [e3, l1] at hi
    rw [l1]
    exact IsInt64Of.unique (int64_nat l2) hi
  have hf := lastPlaced_noText (placed_flat hd) n
  rw [h] at hf
  have hf := Option.map_eq_none_iff.1 hf
  have hmem : (P.length + (joined ps1).length, p) ∈ placedParts P.length (flat us) := by
    rw [e1, placedParts_append, placedParts]; simp
  have := List.find?_eq_none.1 hf _ (List.mem_reverse.2 hmem)
  simp [hq] at this

theorem usable_cond {file : Bytes} {n : Int} {off : Nat} (h : Usable file n off) (ps : PS) :
    (readObjectHeader file (seek ps (off : Int))).1.2.2 = true ∨ (readObjectHeader file (seek ps (off : Int))).1.1 ≠ n := by
  cases h with
  | header hh ht hin =>
    left
    obtain ⟨n', g', -, -, k, -⟩ := readObjectHeader_text hh ht file (seek ps (off : Int)) (by rw [seek_pos]; exact hin)
    rw [k]
  | number h0 hbad => exact .inr (other_number hbad h0 ps)

/-- The table of a document after the repair of its entries. -/
structure Mended (P : Bytes) (us : List Update) (xref : Assoc Int XrefEntry) : Prop where
  listed : ∀ n q x off, lastPlaced (placed P.length us) n = some q → entryFor us n = some x → x.offset = (off : Nat) → (off = q.1 ∨ Usable (docText P us) n off) →
    ∃ e, xref.get? n = some e ∧ e.offset = (q.1 : Nat) ∧ e.generation = x.generation ∧ e.typ = x.typ ∧ e.isEncrypted = x.isEncrypted
  typ : ∀ n x, entryFor us n = some x → ∃ e, xref.get? n = some e ∧ e.typ = x.typ
  unlisted : ∀ n q, lastPlaced (placed P.length us) n = some q → entryFor us n = none →
    ∃ e, xref.get? n = some e ∧ e.offset = (q.1 : Nat) ∧ e.generation = q.2.obj.generation ∧ e.typ = 1
  absent : ∀ n, lastPlaced (placed P.length us) n = none → entryFor us n = none → xref.get? n = none

/-- `Load` of a document, up to the encryption dictionary. -/
theorem document_mended {rd : Reading} {cfg : Cfg} (hcd : rd.cd = cfg.ext.toCodecs) {P : Bytes} {us : List Update} (hd : Document rd P us) (hf : cfg.file = docText P us) (ord : Order) (f fx : Nat)
    (hfx : us.length ≤ fx) (s0 : PS) :
    ∃ s, (∀ pw, load cfg ord (f + 1) fx pw { LS.init with ps := s0 } = (match s.trailer.get? b!"Encrypt" with
        | some e => markEncrypt e s >>= fun p => setPassword cfg (fun env => resolver env (f + 1)) ord.next pw p.2
        | none => .ok (none, s))) ∧
      Mended P us s.xref ∧ (∀ k v, trailerFor us k = some v → s.trailer.get? k = some v) ∧
      (∀ k v, s.trailer.get? k = some v → trailerFor us k = none → ∃ d, FirstRaw rd us.tail d ∧ d.get? k = some v) ∧ s.sh = newSecurityHandler := by
  obtain ⟨offs, objs, sp, s1, h1, h2, h3, f1, f2, h5, h6, h7, h8⟩ := document_loads hcd hd hf f fx hfx s0
  have hv := visited ord objs
  obtain ⟨s3, g1, g2, g3, g4, g5⟩ := repairAll_run cfg (ord.visit objs) ((hv.map _).nodup_iff.2 h3) s1
  have hvis : ∀ n, Assoc.get? (ord.visit objs) n = objs.get? n := fun n => (Assoc.get?_perm hv.symm h3 n).symm
  refine ⟨s3, fun pw => ?_, ⟨?_, ?_, ?_, ?_⟩, ?_, ?_, g3.trans h8⟩
  · rw [load, loadF]
    refine (bind_of_ok h1).trans ?_
    dsimp only
    refine (bind_of_ok h2).trans ?_
    refine (bind_of_ok g1).trans ?_
    refine (bind_of_ok (a := s3.trailer.get? b!"Encrypt") (t := s3) rfl).trans ?_
    cases s3.trailer.get? b!"Encrypt" with
    | none => rfl
    | some v => rfl
  · intro n q x off hq hx ho hu
    obtain ⟨hn, pre, gs, T, R, k1, k2, k3, k4, k5, k6⟩ := document_place hd hq
    rw [← hf] at k1
    have hx0 := h5 n
    rw [hx] at hx0
    obtain ⟨x', hx1, hnear⟩ := hx0
    have : ∃ off : Nat, x'.typ = x.typ ∧ x'.generation = x.generation ∧ x'.isEncrypted = x.isEncrypted ∧ x'.offset = off ∧ (off = q.1 ∨ Usable cfg.file n off) := by
      cases hnear with
      | same h => subst h; exact ⟨off, rfl, rfl, rfl, ho, by rw [hf]; exact hu⟩
      | @moved o a b b' c d => exact ⟨o, a, b, b', c, .inr d⟩
    obtain ⟨off, i1, i2, i3, ho, hu⟩ := this
    obtain ⟨o, j1, j2, j3, j4⟩ := last_found k1 f1 f2
    obtain ⟨ps, j5⟩ := (g5 n o ((hvis n).trans j1)).2 x' hx1
    refine ⟨_, j5, ?_⟩
    rw [repaired]
    split
    · exact ⟨by rw [← k2]; exact j2, i2, i1, i3⟩
    · rename_i hc
      rcases hu with rfl | hu
      · exact ⟨ho, i2, i1, i3⟩
      · exact absurd (by rw [ho]; exact usable_cond hu ps) hc
  · intro n x hx
    have hx0 := h5 n
    rw [hx] at hx0
    obtain ⟨x', hx1, htyp⟩ := hx0.typ
    cases ho : objs.get? n with
    | none => exact ⟨x', by rw [g4 n ((hvis n).trans ho)]; exact hx1, htyp⟩
    | some o =>
      obtain ⟨ps, j5⟩ := (g5 n o ((hvis n).trans ho)).2 x' hx1
      refine ⟨_, j5, ?_⟩
      rw [repaired]
      split
      · exact htyp
      · exact htyp
  · intro n q hq hx
    obtain ⟨hn, pre, gs, T, R, k1, k2, k3, k4, k5, k6⟩ := document_place hd hq
    rw [← hf] at k1
    obtain ⟨o, j1, j2, j3, j4⟩ := last_found k1 f1 f2
    have hx0 := h5 n
    rw [hx] at hx0
    refine ⟨o, (g5 n o ((hvis n).trans j1)).1 hx0, by rw [← k2]; exact j2, ?_, j3⟩
    rw [k3]; exact IsInt64Of.unique j4 (int64_nat k4)
  · intro n hl hx
    have hx0 := h5 n
    rw [hx] at hx0
    have hx0 : s1.xref.get? n = none := hx0
    cases ho : objs.get? n with
    | some o =>
      obtain ⟨pre, ds, k1, k2, -⟩ := f2 n o ho
      rw [hf] at k1
      exact absurd k2 (lastPlaced_none hd hl k1)
    | none => rw [g4 n ((hvis n).trans ho), hx0]
  · intro k v hv; rw [g2]; exact h6 k v hv
  · intro k v hv hn
    rw [g2] at hv
    rcases h7 k v hv with h | h
    · exact absurd hn h
    · exact h

/-- `Load` of a document that is not encrypted. -/
theorem document_load {cfg : Cfg} {P : Bytes} {us : List Update} (hd : Document cfg.ext.toCodecs P us) (hf : cfg.file = docText P us) (henc : trailerFor us b!"Encrypt" = none)
    (henc' : ∀ d, FirstDict us.tail d → d.get? b!"Encrypt" = none) (ord : Order) (f fx : Nat) (hfx : us.length ≤ fx) (pw : Bytes) (s0 : PS) :
    ∃ s, load cfg ord (f + 1) fx pw { LS.init with ps := s0 } = .ok (none, s) ∧ Mended P us s.xref ∧
      (∀ k v, trailerFor us k = some v → s.trailer.get? k = some v) ∧ (∀ k v, s.trailer.get? k = some v → trailerFor us k = none → ∃ d, FirstDict us.tail d ∧ d.get? k = some v) ∧
      s.sh = newSecurityHandler := by
  obtain ⟨s, h1, h2, h3, h4, h5⟩ := document_mended rfl hd hf ord f fx hfx s0
  have h4 : ∀ k v, s.trailer.get? k = some v → trailerFor us k = none → ∃ d, FirstDict us.tail d ∧ d.get? k = some v := by
    intro k v hv hn
    obtain ⟨d, k1, k2⟩ := h4 k v hv hn
    exact ⟨d, k1.plain, k2⟩
  refine ⟨s, ?_, h2, h3, h4, h5⟩
  rw [h1]
  cases ht : s.trailer.get? b!"Encrypt" with
  | none => rfl
  | some v =>
    obtain ⟨d, k1, k2⟩ := h4 _ v ht henc
    rw [henc' d k1] at k2; cases k2

/-! ### C74 -/

/-- **C74** A document with any number of incremental updates, not encrypted: `Load` succeeds whatever the password and
the order in which maps are visited. A trailer key has the value that the newest trailer with it gives (the dictionary of
a cross reference stream is a trailer); any other key comes from the dictionary of an object. An object that the sections
say is in use is read from its last place in the file, with the generation that the newest section with it gives, even when
the offset given there is that of an older version or of nothing. An object that the newest section with it says is free or
in an object stream is null. An object that no section has is read as well. -/
theorem C74_read_partial {P : Bytes} {us : List Update} {ext : Ext} (hd : Document ext.toCodecs P us) (henc : trailerFor us b!"Encrypt" = none)
    (henc' : ∀ d, FirstDict us.tail d → d.get? b!"Encrypt" = none) (verbose : Option Bool) (ord : Order) (f fx : Nat) (hfx : us.length ≤ fx) (pw : Bytes) :
    ∃ ls, load ⟨docText P us, ext, verbose⟩ ord (f + 1) fx pw LS.init = .ok (none, ls) ∧
      (∀ k v, trailerFor us k = some v → ls.trailer.get? k = some v) ∧
      (∀ k v, ls.trailer.get? k = some v → trailerFor us k = none → ∃ d, FirstDict us.tail d ∧ d.get? k = some v) ∧
      (∀ n q x off, lastPlaced (placed P.length us) n = some q → entryFor us n = some x → x.typ = 1 → x.offset = (off : Nat) → (off = q.1 ∨ Usable (docText P us) n off) →
        ∀ f' s, ∃ s', getObject (ls.env ⟨docText P us, ext, verbose⟩) f' n s = .ok (withGeneration q.2.obj x.generation, s') ∧ s'.log = s.log ++ q.2.notes) ∧
      (∀ n x, entryFor us n = some x → x.typ ≠ 1 → ∀ f' s, getObject (ls.env ⟨docText P us, ext, verbose⟩) f' n s = .ok (⟨n, 0, .null, none⟩, s)) ∧
      (∀ n q, lastPlaced (placed P.length us) n = some q → entryFor us n = none →
        ∀ f' s, ∃ s', getObject (ls.env ⟨docText P us, ext, verbose⟩) f' n s = .ok (q.2.obj, s') ∧ s'.log = s.log ++ q.2.notes) ∧
      (∀ n, lastPlaced (placed P.length us) n = none → entryFor us n = none → ∀ f' s, getObject (ls.env ⟨docText P us, ext, verbose⟩) f' n s = .ok (⟨n, 0, .null, none⟩, s)) := by
  obtain ⟨ls, h1, h2, h4, h5, h6⟩ := document_load (cfg := ⟨docText P us, ext, verbose⟩) hd rfl henc henc' ord f fx hfx pw PS.init
  have hread : ∀ n q (e : XrefEntry), lastPlaced (placed P.length us) n = some q → ls.xref.get? n = some e → e.typ = 1 → e.offset = (q.1 : Nat) →
      ∀ f' s, ∃ s', getObject (ls.env ⟨docText P us, ext, verbose⟩) f' n s = .ok (withGeneration q.2.obj e.generation, s') ∧ s'.log = s.log ++ q.2.notes := by
    intro n q e hq he ht ho f' s
    obtain ⟨hn, pre, gs, T, R, -, -, -, -, k5, k6⟩ := document_place hd hq
    subst hn
    refine getObject_entry (env := ls.env ⟨docText P us, ext, verbose⟩) h6 k6 (R := R) ⟨he, ht, by rw [ho]; exact Int.natCast_nonneg _, ?_⟩ f' s
    show (docText P us).drop e.offset.toNat = _
    rw [ho, Int.toNat_natCast, k5]
  refine ⟨ls, h1, h4, h5, ?_, ?_, ?_, ?_⟩
  · intro n q x off hq hx ht ho hu
    obtain ⟨e, j1, j2, j3, j4, -⟩ := h2.listed n q x off hq hx ho hu
    rw [← j3]
    exact hread n q e hq j1 (j4.trans ht) j2
  · intro n x hx ht f' s
    obtain ⟨e', j1, j2⟩ := h2.typ n x hx
    refine C16_null _ f' n ?_ s
    intro e he
    have he : ls.xref.get? n = some e := he
    rw [j1] at he
    cases he
    rw [j2]; exact ht
  · intro n q hq hx
    obtain ⟨e, j1, j2, j3, j4⟩ := h2.unlisted n q hq hx
    have := hread n q e hq j1 j4 j2
    rw [j3] at this
    exact this
  · intro n hl hx f' s
    refine C16_null _ f' n ?_ s
    intro e he
    have he : ls.xref.get? n = some e := he
    rw [h2.absent n hl hx] at he
    cases he

/-! ### What a document with right tables means -/

/-- `meant`, of a list of revisions. -/
def meantIn (rs : List Revision) (n : Int) : Option Part :=
  match rs.reverse.find? fun r => (lastFor r.entries n).isSome with
  | none => none
  | some r => if (lastFor r.entries n).any fun x => x.typ = 1 then lastWith r.parts n else none

theorem meant_eq (us : List Update) (n : Int) : meant us n = meantIn (revisions us) n := rfl

theorem lists_none {rs : List Revision} {n : Int} : (rs.reverse.find? fun r => (lastFor r.entries n).isSome) = none ↔ lastFor (rs.flatMap (·.entries)) n = none := by
  rw [List.find?_eq_none, lastFor_none]
  constructor
  · intro h hm
    obtain ⟨y, hy, rfl⟩ := List.mem_map.1 hm
    obtain ⟨u, hu, hy⟩ := List.mem_flatMap.1 hy
    have := h u (List.mem_reverse.2 hu)
    rw [Option.not_isSome_iff_eq_none, lastFor_none] at this
    exact this (List.mem_map_of_mem hy)
  · intro h u hu
    rw [Option.not_isSome_iff_eq_none, lastFor_none]
    intro hm
    obtain ⟨y, hy, rfl⟩ := List.mem_map.1 hm
    exact h (List.mem_map_of_mem (List.mem_flatMap.2 ⟨u, List.mem_reverse.1 hu, hy⟩))

theorem meant_old {r : Revision} {rs : List Revision} {n : Int} (h : lastFor (rs.flatMap (·.entries)) n ≠ none) : meantIn (r :: rs) n = meantIn rs n := by
  rw [meantIn, meantIn, List.reverse_cons, List.find?_append]
  cases hf : rs.reverse.find? fun u => (lastFor u.entries n).isSome with
  | none => exact absurd (lists_none.1 hf) h
  | some v => rfl

theorem meant_new {r : Revision} {rs : List Revision} {n : Int} (h : lastFor (rs.flatMap (·.entries)) n = none) :
    meantIn (r :: rs) n = if (lastFor r.entries n).any fun x => x.typ = 1 then lastWith r.parts n else none := by
  rw [meantIn, List.reverse_cons, List.find?_append, lists_none.2 h]
  cases hl : lastFor r.entries n with
  | none => simp [hl]
  | some x => simp [hl]

theorem lastPlaced_append (a b : List (Nat × Part)) (n : Int) : lastPlaced (a ++ b) n = (lastPlaced b n).or (lastPlaced a n) := by
  rw [lastPlaced, lastPlaced, lastPlaced, List.reverse_append, List.find?_append]

theorem lastPlaced_parts : ∀ (ps : List Part) (pos : Nat) (n : Int), (lastPlaced (placedParts pos ps) n).map (·.2) = lastWith ps n
  | [], _, _ => rfl
  | p :: ps, pos, n => by
    have e : placedParts pos (p :: ps) = [(pos, p)] ++ placedParts (pos + p.text.length) ps := rfl
    have e' : lastWith (p :: ps) n = (lastWith ps n).or (lastWith [p] n) := by
      rw [lastWith, lastWith, lastWith, List.reverse_cons, List.find?_append]; rfl
    rw [e, lastPlaced_append, e', ← lastPlaced_parts ps (pos + p.text.length) n]
    cases lastPlaced (placedParts (pos + p.text.length) ps) n with
    | some q => rfl
    | none =>
      by_cases h : p.obj.number = n
      · simp [lastPlaced, lastWith, h]
      · simp [lastPlaced, lastWith, h]

/-- Revisions with their objects and where they are. -/
abbrev Group := List (Nat × Part) × Revision

/-- The updates, one by one. -/
def plainGroups : Nat → List Update → List Group
  | _, [] => []
  | pos, u :: us => (placedParts pos u.parts, u.revision) :: plainGroups (pos + u.text.length) us

structure RightGroup (file : Bytes) (g : Group) : Prop where
  table : RightTable file g.1 g.2.entries
  parts : ∀ n, (lastPlaced g.1 n).map (·.2) = lastWith g.2.parts n

/-- What a group is made of. -/
inductive GroupOf (us : List Update) : Group → Prop
  | update {u pos} : u ∈ us → GroupOf us (placedParts pos u.parts, u.revision)
  | linear {u v rest pos} : us = u :: v :: rest → linear us = true → GroupOf us (placed pos [u, v], firstTwo u v)

theorem plainGroups_of {file : Bytes} : ∀ {us : List Update} {pos : Nat}, RightUpdates file pos us → (plainGroups pos us).flatMap (·.1) = placed pos us ∧ (plainGroups pos us).map (·.2) = us.map Update.revision ∧
    ∀ g ∈ plainGroups pos us, RightGroup file g ∧ ∃ u ∈ us, ∃ pos, g = (placedParts pos u.parts, u.revision)
  | [], _, _ => ⟨rfl, rfl, by simp [plainGroups]⟩
  | u :: us, pos, h => by
    obtain ⟨h1, h2⟩ := h
    obtain ⟨k1, k2, k3⟩ := plainGroups_of h2
    refine ⟨by rw [plainGroups, List.flatMap_cons, k1]; rfl, by rw [plainGroups, List.map_cons, k2]; rfl, fun g hg => ?_⟩
    rcases List.mem_cons.1 hg with rfl | hg
    · exact ⟨⟨h1, lastPlaced_parts _ _⟩, u, by simp, pos, rfl⟩
    · obtain ⟨j1, v, hv, j2⟩ := k3 g hg
      exact ⟨j1, v, by simp [hv], j2⟩

theorem rightTables_plain {file : Bytes} {pos : Nat} {us : List Update} (h : linear us = false) : RightTables file pos us ↔ RightUpdates file pos us := by
  rw [RightTables]
  intro u v us' e
  rw [h] at e; cases e

theorem rightTables_linear {file : Bytes} {pos : Nat} {u v : Update} {us : List Update} (h : linear (u :: v :: us) = true) :
    RightTables file pos (u :: v :: us) ↔ RightTable file (placed pos [u, v]) (v.sect.entries ++ u.sect.entries) ∧ RightUpdates file (pos + u.text.length + v.text.length) us := by
  rw [RightTables]
  exact h

theorem groups_of {file : Bytes} {us : List Update} {pos : Nat} (h : RightTables file pos us) :
    ∃ gs : List Group, gs.flatMap (·.1) = placed pos us ∧ gs.map (·.2) = revisions us ∧ ∀ g ∈ gs, RightGroup file g ∧ GroupOf us g := by
  cases hl : linear us with
  | false =>
    rw [rightTables_plain hl] at h
    obtain ⟨k1, k2, k3⟩ := plainGroups_of h
    refine ⟨_, k1, by rw [k2, revisions_plain hl], fun g hg => ?_⟩
    obtain ⟨j1, u, hu, pos', rfl⟩ := k3 g hg
    exact ⟨j1, .update hu⟩
  | true =>
    match us, hl, h with
    | u :: v :: us, hl, h =>
      rw [rightTables_linear hl] at h
      obtain ⟨h1, h2⟩ := h
      obtain ⟨k1, k2, k3⟩ := plainGroups_of h2
      refine ⟨(placed pos [u, v], firstTwo u v) :: plainGroups (pos + u.text.length + v.text.length) us, ?_, ?_, fun g hg => ?_⟩
      · rw [List.flatMap_cons, k1]
        simp [placed]
      · rw [List.map_cons, k2, revisions_linear hl]
      · rcases List.mem_cons.1 hg with rfl | hg
        · refine ⟨⟨h1, fun n => ?_⟩, .linear rfl hl⟩
          have e' : lastWith (u.parts ++ v.parts) n = (lastWith v.parts n).or (lastWith u.parts n) := by
            rw [lastWith, lastWith, lastWith, List.reverse_append, List.find?_append]
          show (lastPlaced (placed pos [u, v]) n).map (·.2) = lastWith (u.parts ++ v.parts) n
          rw [e', ← lastPlaced_parts u.parts pos, ← lastPlaced_parts v.parts (pos + u.text.length), placed, placed, placed, List.append_nil, lastPlaced_append]
          cases lastPlaced (placedParts (pos + u.text.length) v.parts) n <;> rfl
        · obtain ⟨j1, w, hw, pos', rfl⟩ := k3 g hg
          exact ⟨j1, .update (by simp [hw])⟩

theorem group_cases {file : Bytes} (n : Int) : ∀ (gs : List Group), (∀ g ∈ gs, RightGroup file g) →
    (lastFor ((gs.map (·.2)).flatMap (·.entries)) n = none ∧ lastPlaced (gs.flatMap (·.1)) n = none ∧ meantIn (gs.map (·.2)) n = none) ∨
    (∃ x, lastFor ((gs.map (·.2)).flatMap (·.entries)) n = some x ∧ x.typ ≠ 1 ∧ meantIn (gs.map (·.2)) n = none) ∨
    ∃ x q, lastFor ((gs.map (·.2)).flatMap (·.entries)) n = some x ∧ x.typ = 1 ∧ lastPlaced (gs.flatMap (·.1)) n = some q ∧ meantIn (gs.map (·.2)) n = some q.2 ∧
      (∃ off : Nat, x.offset = off ∧ (off = q.1 ∨ Usable file n off)) ∧ x.generation = q.2.obj.generation ∧ ∃ g ∈ gs, lastFor g.2.entries n = some x ∧ lastPlaced g.1 n = some q := by
  intro gs
  induction gs with
  | nil => intro _; exact .inl ⟨rfl, rfl, rfl⟩
  | cons g gs ih =>
    intro h
    obtain ⟨h1, hw⟩ := h g (by simp)
    have hw := hw n
    rw [List.map_cons, List.flatMap_cons, List.flatMap_cons, lastFor_append, lastPlaced_append]
    rcases ih (fun g hg => h g (by simp [hg])) with ⟨k1, k2, -⟩ | ⟨x, k1, k2, k3⟩ | ⟨x, q, k1, k2, k3, k4, k5, k6, g', hg', k7⟩
    · rw [k1, Option.none_or, k2, Option.none_or, meant_new k1]
      cases hl : lastFor g.2.entries n with
      | none =>
        left
        refine ⟨rfl, ?_, by simp⟩
        cases hq : lastPlaced g.1 n with
        | none => rfl
        | some q =>
          exfalso
          have hmem : q ∈ g.1 := List.mem_reverse.1 (List.mem_of_find?_eq_some hq)
          have hnum : q.2.obj.number = n := by simpa using List.find?_some hq
          obtain ⟨x, hx, -⟩ := h1.all q hmem
          rw [hnum, hl] at hx
          cases hx
      | some x =>
        right
        by_cases ht : x.typ = 1
        · right
          obtain ⟨q, j1, j2, j3⟩ := h1.inUse n x hl ht
          refine ⟨x, q, rfl, ht, j1, ?_, j2, j3, g, by simp, hl, j1⟩
          rw [j1] at hw
          rw [← hw]
          simp [ht]
        · left
          exact ⟨x, rfl, ht, by simp [ht]⟩
    · rw [k1, meant_old (by rw [k1]; simp)]
      exact .inr (.inl ⟨x, rfl, k2, k3⟩)
    · rw [k1, meant_old (by rw [k1]; simp), k3]
      exact .inr (.inr ⟨x, q, rfl, k2, rfl, k4, k5, k6, g', List.mem_cons_of_mem _ hg', k7⟩)

theorem meant_cases {file : Bytes} {us : List Update} {pos : Nat} (h : RightTables file pos us) (n : Int) :
    (entryFor us n = none ∧ lastPlaced (placed pos us) n = none ∧ meant us n = none) ∨
    (∃ x, entryFor us n = some x ∧ x.typ ≠ 1 ∧ meant us n = none) ∨
    ∃ x q, entryFor us n = some x ∧ x.typ = 1 ∧ lastPlaced (placed pos us) n = some q ∧ meant us n = some q.2 ∧ (∃ off : Nat, x.offset = off ∧ (off = q.1 ∨ Usable file n off)) ∧ x.generation = q.2.obj.generation ∧
      ∃ g, GroupOf us g ∧ lastFor g.2.entries n = some x ∧ lastPlaced g.1 n = some q := by
  obtain ⟨gs, h1, h2, h3⟩ := groups_of h
  rw [entryFor, meant_eq, ← h1, ← h2]
  rcases group_cases n gs (fun g hg => (h3 g hg).1) with h | h | ⟨x, q, k1, k2, k3, k4, k5, k6, g, hg, k7⟩
  · exact .inl h
  · exact .inr (.inl h)
  · exact .inr (.inr ⟨x, q, k1, k2, k3, k4, k5, k6, g, (h3 g hg).2, k7⟩)

/-- **C74** (part: no first object of an update has a key /Encrypt or /Prev; no table takes one byte less than a multiple
of 4096) When the sections of a document are right, a number is read as what the document means: the object of the newest
update that lists it, and null when that update says it is free or no update lists it. -/
theorem C74_meant_partial {P : Bytes} {us : List Update} {ext : Ext} (hd : Document ext.toCodecs P us) (hr : RightTables (docText P us) P.length us) (henc : trailerFor us b!"Encrypt" = none)
    (henc' : ∀ d, FirstDict us.tail d → d.get? b!"Encrypt" = none) (verbose : Option Bool) (ord : Order) (f fx : Nat) (hfx : us.length ≤ fx) (pw : Bytes) :
    ∃ ls, load ⟨docText P us, ext, verbose⟩ ord (f + 1) fx pw LS.init = .ok (none, ls) ∧
      (∀ n p, meant us n = some p → ∀ f' s, ∃ s', getObject (ls.env ⟨docText P us, ext, verbose⟩) f' n s = .ok (p.obj, s') ∧ s'.log = s.log ++ p.notes) ∧
      (∀ n, meant us n = none → ∀ f' s, getObject (ls.env ⟨docText P us, ext, verbose⟩) f' n s = .ok (⟨n, 0, .null, none⟩, s)) := by
  obtain ⟨ls, h1, -, -, h2, h3, -, h4⟩ := C74_read_partial hd henc henc' verbose ord f fx hfx pw
  refine ⟨ls, h1, fun n p hp => ?_, fun n hn => ?_⟩
  · rcases meant_cases hr n with ⟨-, -, k⟩ | ⟨x, -, -, k⟩ | ⟨x, q, k1, k2, k3, k4, k5, k6, -⟩
    · rw [hp] at k; cases k
    · rw [hp] at k; cases k
    · rw [hp] at k4
      cases k4
      obtain ⟨off, k5, k5'⟩ := k5
      have := h2 n q x off k3 k1 k2 k5 k5'
      rw [k6] at this
      exact this
  · rcases meant_cases hr n with ⟨k1, k2, -⟩ | ⟨x, k1, k2, -⟩ | ⟨x, q, -, -, -, k4, -⟩
    · exact h4 n k2 k1
    · exact h3 n x k1 k2
    · rw [hn] at k4; cases k4

/-! ### A document with an update -/

def docHead : Bytes := b!"%PDF-1.4\n"

/-- Objects 1 and 2. -/
def update1 : Update where
  parts := [⟨⟨1, 0, .dict [(b!"Type", .name b!"Catalog")], none⟩, [], b!"1 0 obj\n<</Type/Catalog>>\nendobj\n"⟩, ⟨⟨2, 0, .str b!"old", none⟩, [], b!"2 0 obj\n(old)\nendobj\n"⟩]
  sect := .table [(0, [⟨0, 9, false⟩, ⟨9, 0, true⟩, ⟨42, 0, true⟩])] [(b!"Root", .ref 1 0)] [] b!"xref\n0 3\n0 9 f \n9 0 n \n42 0 n \ntrailer\n" b!"/Root 1 0 R>>" b!"\n"
  back := b!"startxref\n63\n%%EOF\n"

/-- A new version of object 1, a dictionary with the key `k`; object 2 is free. -/
def update2 (k : Bytes) (place : List Nat) : Update where
  parts := [⟨⟨1, 0, .dict [(k, .kw b!"true")], none⟩, [], b!"1 0 obj" ++ ((b!"\n" ++ ((b!"<</" ++ (k ++ b!" true>>")) ++ b!"\n")) ++ (b!"endobj" ++ b!"\n"))⟩]
  sect := .table [(1, [⟨137, 0, true⟩, ⟨0, 1, false⟩])] [(b!"Prev", .num (intNum false 63))] [] b!"xref\n1 2\n137 0 n \n0 1 f \ntrailer\n" b!"/Prev 63>>" b!"\n"
  back := b!"startxref\n" ++ (place.map decDigit ++ b!"\n%%EOF")

theorem no_refTail (z : Bytes) : ¬ RefTail (62 :: z) := by
  rintro ⟨w, gs, w', r, e, hw, -, hne, hd, -⟩
  have key : ∀ x < 10, decDigit x ≠ 62 := by decide
  cases hw with
  | nil =>
    cases gs with
    | nil => exact hne rfl
    | cons g gs => exact key g (hd g (by simp)) (List.cons.inj e).1.symm
  | ws h _ =>
    have := (List.cons.inj e).1
    subst this
    revert h; decide
  | comment _ _ _ => exact absurd (List.cons.inj e).1 (by decide)

theorem gap_of {w : Bytes} (h : (∀ b ∈ w, IsWhite b) ∧ w ≠ []) : Gap w := ⟨blank_of_white h.1, h.2⟩

theorem update1_at (cd : Codecs) {stray : Option Int → Prop} {pos : Nat} (hpl : 63 = update1.place pos ∨ stray (some 63)) : UpdateAt cd stray pos none update1 b!"\n" where
  parts := by
    intro p hp
    simp only [update1, List.mem_cons, List.not_mem_nil, or_false] at hp
    rcases hp with rfl | rfl
    · exact ObjectText.value (h := b!"1 0 obj") (w := b!"\n") (t := b!"<</Type/Catalog>>") (w' := b!"\n") (u := b!"\n")
        (.mk (ds := [1]) (gs := [0]) (w := b!" ") (w' := b!" ") (by decide) (by decide) (by decide) (by decide) (by decide) (by decide) ⟨by decide, by decide⟩ ⟨by decide, by decide⟩)
        (blank_of_white (by decide)) (stops_dec (by decide)) (by decide)
        (fun r => .dict (es := [(b!"Type", .name b!"Catalog")]) (t := b!"/Type/Catalog>>")
          (.cons (w := []) (kt := b!"Type") (w' := []) (t := b!"/Catalog") (u := b!">>") (e := []) (e' := []) (e'' := []) .nil (nameText_plain _ (by decide)) .nil (by rintro b t ⟨⟩; decide)
            (.name (t := b!"Catalog") (nameText_plain _ (by decide)) (by rintro b t ⟨⟩; decide)) (.nil (w := []) .nil)))
        (blank_of_white (by decide)) (lacks_dec (by decide)).noHeader (noOpen_dec (by decide)) (Break.between ⟨by decide, by decide⟩)
    · exact ObjectText.value (h := b!"2 0 obj") (w := b!"\n") (t := b!"(old)") (w' := b!"\n") (u := b!"\n")
        (.mk (ds := [2]) (gs := [0]) (w := b!" ") (w' := b!" ") (by decide) (by decide) (by decide) (by decide) (by decide) (by decide) ⟨by decide, by decide⟩ ⟨by decide, by decide⟩)
        (blank_of_white (by decide)) (stops_dec (by decide)) (by decide) (fun r => .str (t := b!"old") (strText_plain (by decide))) (blank_of_white (by decide)) (lacks_dec (by decide)).noHeader
        (noOpen_dec (by decide)) (Break.between ⟨by decide, by decide⟩)
  sect := by
    refine .table rfl ?_ ?_ ⟨b!"\n0 3\n0 9 f \n9 0 n \n42 0 n \ntrailer\n", rfl⟩ (by decide) ?_
    · intro p hp
      simp only [update1, List.mem_cons, List.not_mem_nil, or_false] at hp
      rcases hp with rfl | rfl
      · rintro d ⟨⟩; decide
      · rintro d ⟨⟩
    · have sp : Gap [32] := gap_of (by decide)
      have nl : Gap [10] := gap_of (by decide)
      have sn : Gap [32, 10] := gap_of (by decide)
      exact .mk (w := []) (w1 := [32, 10]) (w2 := [10]) .nil (.cons (w := [10]) (w1 := [32]) (ls := [⟨0, 9, false⟩, ⟨9, 0, true⟩, ⟨42, 0, true⟩]) nl (.mk (ds := [0]) (by decide) (by decide) (by decide)) sp (.mk (ds := [3]) (by decide) (by decide) (by decide))
      (.cons (w := [10]) (w1 := [32]) (w2 := [32]) (u := false) nl (.mk (ds := [0]) (by decide) (by decide) (by decide)) sp (.mk (ds := [9]) (by decide) (by decide) (by decide)) sp
      (.cons (w := [32, 10]) (w1 := [32]) (w2 := [32]) (u := true) sn (.mk (ds := [9]) (by decide) (by decide) (by decide)) sp (.mk (ds := [0]) (by decide) (by decide) (by decide)) sp
      (.cons (w := [32, 10]) (w1 := [32]) (w2 := [32]) (u := true) sn (.mk (ds := [4, 2]) (by decide) (by decide) (by decide)) sp (.mk (ds := [0]) (by decide) (by decide) (by decide)) sp .nil))) (by decide) .nil) sn nl.1
    · intro z
      exact .cons (w := []) (kt := b!"Root") (w' := b!" ") (t := b!"1 0 R") (u := b!">>") (e := []) (e' := []) (e'' := []) .nil (nameText_plain _ (by decide)) (blank_of_white (by decide))
        (by rintro b t ⟨⟩; decide) (.ref (ds := [1]) (w := b!" ") (gs := [0]) (w' := b!" ") (by decide) (by decide) (by decide) (blank_of_white (by decide)) (by decide) (by decide) (by decide) (by decide)
        (blank_of_white (by decide)) (by decide) (by rintro b t ⟨⟩; decide)) (.nil (w := []) .nil)
  back := by
    have := BackText.mk (w := b!"\n") (w' := b!"\n") (r := b!"\n") (ds := [6, 3]) (by decide) (by decide) (by decide) (by decide) (by decide)
    exact ⟨63, this, hpl⟩
  word := lacks_dec (by decide)
  hasPrev := by rintro p ⟨⟩
  noPrev _ := by decide
  first h := absurd rfl h

theorem update2_at (cd : Codecs) {stray : Option Int → Prop} {pos prev : Nat} {k : Bytes} {place : List Nat} (hk : ∀ b ∈ k, Spec.IsRegular b ∧ b ≠ 35) (hp : k ≠ b!"Prev") (ht : k ≠ b!"Type")
    (h1 : hasWord b!"obj" (b!"\n" ++ ((b!"<</" ++ (k ++ b!" true>>")) ++ b!"\n")) = false) (h2 : openEnd (b!"\n" ++ ((b!"<</" ++ (k ++ b!" true>>")) ++ b!"\n")) = false)
    (hd : ∀ d ∈ place, d < 10) (hne : place ≠ []) (hpl : Spec.decVal place = (update2 k place).place pos ∨ stray (some (Spec.decVal place : Nat)))
    (hprev : 63 = prev ∨ stray (some 63)) (h3 : hasWord b!"obj" (update2 k place).tail = false) : UpdateAt cd stray pos (some prev) (update2 k place) [] where
  parts := by
    intro p hp
    simp only [update2, List.mem_cons, List.not_mem_nil, or_false] at hp
    subst hp
    refine ObjectText.value (h := b!"1 0 obj") (w := b!"\n") (t := b!"<</" ++ (k ++ b!" true>>")) (w' := b!"\n") (u := b!"\n")
      (.mk (ds := [1]) (gs := [0]) (w := b!" ") (w' := b!" ") (by decide) (by decide) (by decide) (by decide) (by decide) (by decide) ⟨by decide, by decide⟩ ⟨by decide, by decide⟩)
      (blank_of_white (by decide)) (by rintro b t ⟨⟩; decide) (by simp) ?_
      (blank_of_white (by decide)) (lacks_dec h1).noHeader (noOpen_dec h2) (Break.between ⟨by decide, by decide⟩)
    intro r
    have := ObjAt.dict (es := [(k, .kw b!"true")]) (r := b!"\n" ++ (b!"endobj" ++ r)) (.cons (w := []) (kt := k) (w' := b!" ") (t := b!"true") (u := b!">>") (e := []) (e' := []) (e'' := []) .nil (nameText_plain _ hk) (blank_of_white (by decide)) (by rintro b t ⟨⟩; decide)
        (.kw (b := 116) (k := b!"rue") (by decide) (by decide) (by decide) (by decide) (by decide) (by decide) (by rintro b t ⟨⟩; decide)) (.nil (w := []) .nil))
    exact this
  sect := by
    refine .table rfl ?_ ?_ ⟨b!"\n1 2\n137 0 n \n0 1 f \ntrailer\n", rfl⟩ (by decide) ?_
    · intro p hp
      simp only [update2, List.mem_cons, List.not_mem_nil, or_false] at hp
      subst hp
      rintro d ⟨⟩
      simp [Assoc.get?, ht]
    · have sp : Gap [32] := gap_of (by decide)
      have nl : Gap [10] := gap_of (by decide)
      have sn : Gap [32, 10] := gap_of (by decide)
      exact .mk (w := []) (w1 := [32, 10]) (w2 := [10]) .nil (.cons (w := [10]) (w1 := [32]) (ls := [⟨137, 0, true⟩, ⟨0, 1, false⟩]) nl (.mk (ds := [1]) (by decide) (by decide) (by decide)) sp (.mk (ds := [2]) (by decide) (by decide) (by decide))
      (.cons (w := [10]) (w1 := [32]) (w2 := [32]) (u := true) nl (.mk (ds := [1, 3, 7]) (by decide) (by decide) (by decide)) sp (.mk (ds := [0]) (by decide) (by decide) (by decide)) sp
      (.cons (w := [32, 10]) (w1 := [32]) (w2 := [32]) (u := false) sn (.mk (ds := [0]) (by decide) (by decide) (by decide)) sp (.mk (ds := [1]) (by decide) (by decide) (by decide)) sp .nil)) (by decide) .nil) sn nl.1
    · intro z
      exact .cons (w := []) (kt := b!"Prev") (w' := b!" ") (t := b!"63") (u := b!">>") (e := []) (e' := []) (e'' := []) .nil (nameText_plain _ (by decide)) (blank_of_white (by decide))
        (by rintro b t ⟨⟩; decide) (.int (neg := false) (sg := []) (ds := [6, 3]) .none (by decide) (by decide) (by decide) (by rintro b t ⟨⟩; decide) (by rintro u ⟨⟩)
        (no_refTail _)) (.nil (w := []) .nil)
  back := by
    have := BackText.mk (w := b!"\n") (w' := b!"\n") (r := []) (ds := place) (by decide) (by decide) hne hd (by decide)
    exact ⟨_, this, hpl⟩
  word := lacks_dec h3
  hasPrev := by
    rintro p ⟨⟩
    refine .inl ⟨_, rfl, ?_⟩
    have e : F64.toInt (intNum false 63) = 63 := by decide +kernel
    rw [e]
    exact hprev.imp_left fun h => by omega
  noPrev h := by cases h
  first _ := by
    rintro p ⟨⟩ d ⟨⟩
    simp [Assoc.get?, hp]

theorem words_dec {file : Bytes} {l : List Nat} (h : ∀ o ∈ findXrefLoop file (file.length + 1) 0 [], ∃ x ∈ l, o = (x : Nat)) : ∀ a b, file = a ++ (b!"xref" ++ b) → a.length ∈ l := by
  intro a b e
  obtain ⟨x, hx, e⟩ := h _ ((findXrefLoop_iff file _ 0 [] (by omega) (Nat.zero_le _) (a.length : Int)).2 (.inr ⟨a, b, e, Nat.zero_le _, rfl⟩))
  have : a.length = x := by omega
  rw [this]; exact hx

set_option maxRecDepth 100000 in
theorem document_of (cd : Codecs) {k : Bytes} {place : List Nat} (h : UpdateAt cd (fun _ => False) 137 (some 63) (update2 k place) [])
    (hw : ∀ o ∈ findXrefLoop (docText docHead [update1, update2 k place]) ((docText docHead [update1, update2 k place]).length + 1) 0 [],
      ∃ x ∈ xrefWords docHead.length [update1, update2 k place], o = (x : Nat))
    (hl : (docText docHead [update1, update2 k place]).length < 2 ^ 63) (hb : (update2 k place).back.length ≤ 256) : Document cd docHead [update1, update2 k place] where
  sections := .linked (.cons (update1_at cd (.inl (by decide))) (.inl (by decide)) (.last h hb))
  nonempty := by rintro u ⟨⟩; decide
  head := lacks_dec (by decide)
  start := by
    intro a b h
    have := (List.append_inj' (show b!"%PDF-1.4" ++ b!"\n" = a ++ [b] from h) rfl).2
    cases this
    unfold IsDec; decide
  noOpen := noOpen_dec (by decide)
  words := words_dec hw
  short := hl

set_option maxRecDepth 100000 in
theorem updated_document (cd : Codecs) : Document cd docHead [update1, update2 b!"New" [1, 6, 6]] :=
  document_of cd (update2_at cd (by decide) (by decide) (by decide) (by decide) (by decide) (by decide) (by decide) (.inl (by decide)) (.inl rfl) (by decide)) (by decide +kernel) (by decide) (by decide)

theorem usable_dec {file : Bytes} {n : Int} {off : Nat} (h : (readObjectHeader file (seek PS.init (off : Int))).1.2.2 = true ∨ n ≠ 0 ∧ (lInt (file.drop off)).all fun p => p.1 ≠ n) : Usable file n off := by
  rcases h with h | ⟨h0, h⟩
  · obtain ⟨ds, gs, hd, r, h1, h2, h3⟩ := header_inv h
    rw [rest, seek_pos] at h3
    exact .header h1 h2 h3
  refine .number h0 ?_
  rintro ⟨w, ds, r, e, hw, hne, hd, hz, hn⟩
  obtain ⟨y, hy, k⟩ := lInt_digits hw ds hd hne r hz
  rw [e, k] at h
  rw [IsInt64Of.unique hy hn] at h
  simp at h

theorem rightTable_dec {file : Bytes} {objects : List (Nat × Part)} {entries : List (Int × XrefEntry)}
    (h1 : ∀ e ∈ entries, e.2.typ = 1 → (lastPlaced objects e.1).any (fun q => (e.2.offset = (q.1 : Int) ∨ 0 ≤ e.2.offset ∧
      ((readObjectHeader file (seek PS.init (e.2.offset.toNat : Int))).1.2.2 = true ∨ e.1 ≠ 0 ∧ (lInt (file.drop e.2.offset.toNat)).all fun p => p.1 ≠ e.1)) ∧
      e.2.generation = q.2.obj.generation))
    (h2 : ∀ p ∈ objects, (lastFor entries p.2.obj.number).any fun x => x.typ = 1) : RightTable file objects entries where
  inUse n x hx ht := by
    obtain ⟨y, hy, rfl⟩ := Option.map_eq_some_iff.1 hx
    have hn : y.1 = n := by simpa using List.find?_some hy
    subst hn
    have := h1 y (List.mem_reverse.1 (List.mem_of_find?_eq_some hy)) ht
    cases hq : lastPlaced objects y.1 with
    | none => rw [hq] at this; cases this
    | some q =>
      rw [hq] at this
      rw [Option.any_some, decide_eq_true_eq] at this
      refine ⟨q, rfl, ?_, this.2⟩
      rcases this.1 with h | ⟨a, b⟩
      · exact ⟨q.1, h, .inl rfl⟩
      · exact ⟨y.2.offset.toNat, (Int.toNat_of_nonneg a).symm, .inr (usable_dec b)⟩
  all p hp := by
    have := h2 p hp
    cases hx : lastFor entries p.2.obj.number with
    | none => rw [hx] at this; cases this
    | some x => rw [hx] at this; exact ⟨x, rfl, by simpa using this⟩

set_option maxRecDepth 100000 in
/-- The hypotheses of `C74_meant_partial`; the newest version of object 1 is meant, and object 2 is gone. -/
example (cd : Codecs) : Document cd docHead [update1, update2 b!"New" [1, 6, 6]] ∧ RightTables (docText docHead [update1, update2 b!"New" [1, 6, 6]]) docHead.length [update1, update2 b!"New" [1, 6, 6]] ∧
    trailerFor [update1, update2 b!"New" [1, 6, 6]] b!"Encrypt" = none ∧ (∀ d, FirstDict [update2 b!"New" [1, 6, 6]] d → d.get? b!"Encrypt" = none) ∧
    (meant [update1, update2 b!"New" [1, 6, 6]] 1).map (·.obj) = some ⟨1, 0, .dict [(b!"New", .kw b!"true")], none⟩ ∧ (meant [update1, update2 b!"New" [1, 6, 6]] 2).isNone ∧
    (meant [update1] 2).map (·.obj) = some ⟨2, 0, .str b!"old", none⟩ := by
  refine ⟨updated_document cd, (rightTables_plain (by decide)).2 ⟨rightTable_dec (by decide) (by decide), rightTable_dec (by decide) (by decide), trivial⟩, by decide, ?_, by decide, by decide, by decide⟩
  rintro d ⟨v, hv, p, hp, hd⟩
  rw [List.mem_singleton] at hv
  subst hv
  cases hp
  cases hd
  decide

/-! ### An update with a cross reference stream -/

/-- A cross reference stream for objects 1 to 3; it is object 3 itself. -/
def xrefStream : IndObj where
  number := 3
  generation := 0
  value := .dict [(b!"Type", .name b!"XRef"), (b!"Index", .arr [.num (intNum false 1), .num (intNum false 3)]),
    (b!"W", .arr [.num (intNum false 1), .num (intNum false 2), .num (intNum false 1)]), (b!"Prev", .num (intNum false 63))]
  stream := some [1, 0, 137, 0, 0, 0, 0, 1, 1, 0, 166, 0]

def xrefPart : Part := ⟨xrefStream, [], xrefStream.toBytes ++ b!"\n"⟩

/-- The same update as `update2`, with a cross reference stream. -/
def update3 (here : Nat) : Update where
  parts := (update2 b!"New" [1, 6, 6]).parts ++ [xrefPart]
  sect := .stream [(1, [⟨1, 137, 0⟩, ⟨0, 0, 1⟩, ⟨1, 166, 0⟩])] 1 2 1 here xrefPart
  back := b!"startxref\n166\n%%EOF"

theorem xrefStream_text (cd : Codecs) : ObjectText cd xrefPart.obj xrefPart.notes xrefPart.text := by
  have h : Reprintable xrefStream := by
    refine ⟨by decide, by decide, .dict (.cons (nameText_plain _ (by decide)) (.name (nameText_plain _ (by decide)))
      (.cons (nameText_plain _ (by decide)) (.arr (.cons (.int (by decide)) (.cons (.int (by decide)) .nil)))
      (.cons (nameText_plain _ (by decide)) (.arr (.cons (.int (by decide)) (.cons (.int (by decide)) (.cons (.int (by decide)) .nil))))
      (.cons (nameText_plain _ (by decide)) (.int (by decide)) .nil)))) (by decide), (lacks_dec (by decide +kernel)).noHeader, ?_⟩
    rintro d ⟨⟩
    exact ⟨_, rfl, by decide, by decide, (fun a b h => by cases h), by decide +kernel, (lacks_dec (by decide)).noHeader, lacks_dec (by decide)⟩
  exact h.text cd

set_option maxRecDepth 100000 in
theorem update3_at (cd : Codecs) {stray : Option Int → Prop} {pos prev here : Nat} (hh : here = pos + 29) (hpl : 166 = here ∨ stray (some 166)) (hprev : 63 = prev ∨ stray (some 63)) :
    UpdateAt cd stray pos (some prev) (update3 here) [] := by
  have h2 : UpdateAt cd (fun _ => True) pos (some prev) (update2 b!"New" [1, 6, 6]) [] :=
    update2_at cd (by decide) (by decide) (by decide) (by decide) (by decide) (by decide) (by decide) (.inr trivial) (.inr trivial) (by decide)
  have hlen : (joined (update2 b!"New" [1, 6, 6]).parts).length = 29 := by decide
  refine ⟨?_, ?_, ?_, lacks_dec (show hasWord b!"obj" ([] ++ b!"startxref\n166\n%%EOF") = false by decide), ?_, (fun h => by cases h), ?_⟩
  · intro p hp
    rcases List.mem_append.1 hp with hp | hp
    · exact h2.parts p hp
    · cases List.mem_singleton.1 hp
      exact xrefStream_text cd
  · refine .stream (x := xrefPart) (ps := (update2 b!"New" [1, 6, 6]).parts) (extra := []) (more := []) (by rw [hlen, ← hh]; rfl) rfl ?_ (by decide) rfl (by decide) (.inl (by decide +kernel)) (by decide +kernel) (by decide) (by decide) (by decide)
      (by decide) ?_ (xrefStream_text cd)
    · cases h2.sect with
      | table _ h _ _ _ _ => exact h
      | stream h => cases h
    · intro p hp
      cases List.mem_singleton.1 hp
      refine ⟨by decide, fun f hf => ?_⟩
      simp only [List.mem_cons, List.not_mem_nil, or_false] at hf
      rcases hf with rfl | rfl | rfl <;> (unfold Fits; decide)
  · have : (update3 here).place pos = here := by
      rw [hh]
      show pos + (joined ((update2 b!"New" [1, 6, 6]).parts ++ [xrefPart]).dropLast).length = _
      rw [List.dropLast_concat, hlen]
    rw [this]
    have := BackText.mk (w := b!"\n") (w' := b!"\n") (r := []) (ds := [1, 6, 6]) (by decide) (by decide) (by decide) (by decide) (by decide)
    exact ⟨166, this, hpl⟩
  · rintro p ⟨⟩
    refine .inl ⟨intNum false 63, rfl, ?_⟩
    have e : F64.toInt (intNum false 63) = 63 := by decide +kernel
    rw [e]
    exact hprev.imp_left fun h => by omega
  · rintro _ p ⟨⟩ d ⟨⟩
    decide

set_option maxRecDepth 100000 in
theorem stream_document (cd : Codecs) : Document cd docHead [update1, update3 166] where
  sections := .linked (.cons (update1_at cd (.inl (by decide))) (.inl (by decide)) (.last (update3_at cd (by decide) (.inl rfl) (.inl rfl)) (by decide)))
  nonempty := by rintro u ⟨⟩; decide
  head := (updated_document cd).head
  start := (updated_document cd).start
  noOpen := (updated_document cd).noOpen
  words := words_dec (by decide +kernel)
  short := by decide +kernel

set_option maxRecDepth 100000 in
/-- The hypotheses of `C74_meant_partial`, for a document with a table and a cross reference stream. -/
example (cd : Codecs) : Document cd docHead [update1, update3 166] ∧ RightTables (docText docHead [update1, update3 166]) docHead.length [update1, update3 166] ∧
    trailerFor [update1, update3 166] b!"Encrypt" = none ∧ (∀ d, FirstDict [update3 166] d → d.get? b!"Encrypt" = none) ∧
    (meant [update1, update3 166] 1).map (·.obj) = some ⟨1, 0, .dict [(b!"New", .kw b!"true")], none⟩ ∧ (meant [update1, update3 166] 2).isNone ∧
    (meant [update1, update3 166] 3).map (·.obj) = some xrefStream := by
  refine ⟨stream_document cd, (rightTables_plain (by decide)).2 ⟨rightTable_dec (by decide) (by decide), rightTable_dec (by decide) (by decide), trivial⟩, by decide, ?_, by decide, by decide, by decide⟩
  rintro d ⟨v, hv, p, hp, hd⟩
  rw [List.mem_singleton] at hv
  subst hv
  cases hp
  cases hd
  decide

/-! ### A document with bytes in front of it -/

theorem lost_dec {file : Bytes} {m : Nat} (hm : m < 2 ^ 63) (h1 : (lKeyword (file.drop m)).val ≠ b!"xref") (h2 : (readObjectHeader file (seek PS.init m)).1.2.2 = false) : Lost file m where
  range := ⟨Int.natCast_nonneg _, by omega⟩
  noTable w r hw hr e := by
    rw [Int.toNat_natCast] at e
    rw [e, lKeyword_word hw (by decide) (by decide) hr] at h1
    exact h1 rfl
  noObject ds gs h r hh hr e := by
    rw [Int.toNat_natCast] at e
    obtain ⟨n, g, -, -, k, -⟩ := readObjectHeader_text hh hr file (seek PS.init (m : Int)) (by rw [seek_pos]; exact e)
    rw [k] at h2
    cases h2

/-- The dictionary of a short object. -/
theorem hasDict_of {cd : Codecs} {file : Bytes} {p : Nat} {x : Part} {D : Dict} {r : Bytes} (h : ObjectText cd x.obj x.notes x.text) (hval : x.obj.value = .dict D) (hin : file.drop p = x.text ++ r)
    (hs : x.text.length < 4095) : ∃ es, HasDict file p es ∧ ∀ k, lastFor es k = D.get? k := by
  obtain ⟨a, ha, hrel⟩ := h
  obtain ⟨ds, gs, hd, w, t, z, k1, k2, k3, k4, k5, -⟩ := ha.body
  have k5 := k5 r
  rw [(Decoded.same hrel).2.2, hval] at k5
  generalize ho : Obj.dict D = o at k5
  generalize x.notes = notes at k5
  cases k5 with
  | @dict es t _ e hes =>
    cases ho
    refine ⟨es, ⟨ds, gs, hd, w, t, _, _, k1, k3, dictAny_of hes, ?_, ?_⟩, fun k => (dictOf_get es k).symm⟩
    · rw [hin, k2]; simp
    · have := congrArg List.length k2
      simp only [List.length_append] at this
      omega
  | _ => cases ho

/-- The head with a line in front of it. -/
def shiftedHead : Bytes := b!"junk\n%PDF-1.4\n"

set_option maxRecDepth 100000 in
theorem shifted_updates (cd : Codecs) : Updates cd (fun m => ∀ x, m = some x → Lost (docText shiftedHead [update1, update3 171]) x) shiftedHead.length none [update1, update3 171] ∧
    Findable (docText shiftedHead [update1, update3 171]) shiftedHead.length [update1, update3 171] ∧
    ∀ d, FirstDict [update3 171] d → ∀ k, trailerFor [update1, update3 171] k ≠ none → d.get? k = none := by
  have l1 : Lost (docText shiftedHead [update1, update3 171]) (63 : Nat) := lost_dec (by decide) (by decide +kernel) (by decide +kernel)
  have l2 : Lost (docText shiftedHead [update1, update3 171]) (166 : Nat) := lost_dec (by decide) (by decide +kernel) (by decide +kernel)
  refine ⟨.cons (update1_at cd (.inr fun x h => ?_)) (.inl (by decide)) (.last (update3_at cd (by decide) (.inr fun x h => ?_) (.inr fun x h => ?_)) (by decide)), ?_, ?_⟩
  · cases h; exact l1
  · cases h; exact l2
  · cases h; exact l1
  · intro u hu subs w0 w1 w2 here x he
    simp only [List.mem_cons, List.not_mem_nil, or_false] at hu
    rcases hu with rfl | rfl
    · cases he
    · cases he
      obtain ⟨es, h1, h2⟩ := hasDict_of (file := docText shiftedHead [update1, update3 171]) (p := 171) (xrefStream_text cd) rfl (r := b!"startxref\n166\n%%EOF") (by decide +kernel) (by decide +kernel)
      refine ⟨⟨es, h1, by rw [h2]; decide +kernel⟩, ?_⟩
      cases hq : lastPlaced (placed shiftedHead.length [update1, update3 171]) xrefPart.obj.number with
      | none =>
        have : (lastPlaced (placed shiftedHead.length [update1, update3 171]) xrefPart.obj.number).map (·.1) = some 171 := by decide +kernel
        rw [hq] at this; cases this
      | some q =>
        have : (lastPlaced (placed shiftedHead.length [update1, update3 171]) xrefPart.obj.number).map (·.1) = some 171 := by decide +kernel
        rw [hq] at this
        exact ⟨q, rfl, Option.some.inj this⟩
  · rintro d ⟨v, hv, p, hp, hd⟩ k hk
    rw [List.mem_singleton] at hv
    subst hv
    cases hp
    cases hd
    by_cases e : k = b!"New"
    · subst e
      exact absurd (by decide +kernel) hk
    · simp [Assoc.get?, Ne.symm e]

set_option maxRecDepth 100000 in
/-- The document `stream_document`, with a line in front of it: all offsets in it are wrong. -/
theorem shifted_document (cd : Codecs) : Document cd shiftedHead [update1, update3 171] where
  sections := .found (shifted_updates cd).1 (shifted_updates cd).2.1 (shifted_updates cd).2.2
  nonempty := by rintro u ⟨⟩; decide
  head := lacks_dec (by decide)
  start := by
    intro a b h
    have := (List.append_inj' (show b!"junk\n%PDF-1.4" ++ b!"\n" = a ++ [b] from h) rfl).2
    cases this
    unfold IsDec; decide
  noOpen := noOpen_dec (by decide)
  words := words_dec (by decide +kernel)
  short := by decide +kernel

set_option maxRecDepth 100000 in
/-- The hypotheses of `C74_meant_partial` for it. -/
example (cd : Codecs) : Document cd shiftedHead [update1, update3 171] ∧ RightTables (docText shiftedHead [update1, update3 171]) shiftedHead.length [update1, update3 171] ∧
    trailerFor [update1, update3 171] b!"Encrypt" = none ∧ (∀ d, FirstDict [update3 171] d → d.get? b!"Encrypt" = none) ∧
    (meant [update1, update3 171] 1).map (·.obj) = some ⟨1, 0, .dict [(b!"New", .kw b!"true")], none⟩ ∧ (meant [update1, update3 171] 2).isNone := by
  refine ⟨shifted_document cd, (rightTables_plain (by decide)).2 ⟨rightTable_dec (by decide +kernel) (by decide), rightTable_dec (by decide +kernel) (by decide), trivial⟩, by decide, ?_, by decide, by decide⟩
  rintro d ⟨v, hv, p, hp, hd⟩
  rw [List.mem_singleton] at hv
  subst hv
  cases hp
  cases hd
  decide

set_option maxRecDepth 100000 in
/-- An offset of an older version is usable: there is a header. -/
example : Usable (docText docHead [update1, update2 b!"New" [1, 6, 6]]) 1 9 :=
  .header (.mk (w := []) (ds := [1]) (w1 := b!" ") (gs := [0]) (w2 := b!" ") .nil (by decide) (by decide) (blank_of_white (by decide)) (by decide) (by decide) (by decide) (blank_of_white (by decide)))
    (t := (docText docHead [update1, update2 b!"New" [1, 6, 6]]).drop 16) (stops_dec (by decide)) (by decide)

set_option maxRecDepth 100000 in
theorem disguised_document (cd : Codecs) : Document cd docHead [update1, update2 b!"Encrypt" [1, 7, 0]] :=
  document_of cd (update2_at cd (by decide) (by decide) (by decide) (by decide) (by decide) (by decide) (by decide) (.inl (by decide)) (.inl rfl) (by decide)) (by decide +kernel) (by decide) (by decide)

set_option maxRecDepth 100000 in
/-- **C74** is false for trailer keys that no trailer has: a document without /Encrypt in any trailer is refused as encrypted,
because the dictionary of the first object after `startxref` is taken for a trailer. -/
theorem C74_false : ∃ (P : Bytes) (us : List Update), Document Concrete.ext.toCodecs P us ∧ RightTables (docText P us) P.length us ∧ trailerFor us b!"Encrypt" = none ∧
    ∃ e ls, load ⟨docText P us, Concrete.ext, some false⟩ default 3 5 [] LS.init = .ok (some e, ls) := by
  refine ⟨docHead, [update1, update2 b!"Encrypt" [1, 7, 0]], disguised_document _, (rightTables_plain (by decide)).2 ⟨rightTable_dec (by decide) (by decide), rightTable_dec (by decide) (by decide), trivial⟩, by decide, ?_⟩
  have h : (match load ⟨docText docHead [update1, update2 b!"Encrypt" [1, 7, 0]], Concrete.ext, some false⟩ default 3 5 [] LS.init with
      | .ok (e, _) => e.isSome | _ => false) = true := by decide +kernel
  generalize load ⟨docText docHead [update1, update2 b!"Encrypt" [1, 7, 0]], Concrete.ext, some false⟩ default 3 5 [] LS.init = r at h ⊢
  match r, h with
  | .ok (some e, ls), _ => exact ⟨e, ls, rfl⟩

end Pdf.Props
