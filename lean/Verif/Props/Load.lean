import Verif.Props.XrefLoad
import Verif.Lemmas.Load
import Verif.Model.Concrete
/-!
`Load`: the section at `startxref` comes last (C24), repair (C25), objects found by scanning (C26).
-/

namespace Pdf.Props
open Pdf Pdf.Spec St

/-- `s1` is the parser once `Load`, started in `s0`, has loaded all cross reference sections, before it
repairs entries (parser.go:34-56). -/
def SectionsLoaded (cfg : Cfg) (f fx : Nat) (s0 s1 : LS) : Prop :=
  ∃ offs objs sp, loadPlan cfg (fun env => resolver env f) s0 = .ok ((offs, objs), sp) ∧
    loadAll cfg (fun env => getObject env f) (fun env => resolver env f) fx offs sp = .ok ((), s1)

/-- Two entries that agree except perhaps on whether strings and streams are decrypted. -/
def Alike (e e' : XrefEntry) : Prop := e'.offset = e.offset ∧ e'.generation = e.generation ∧ e'.typ = e.typ

/-- A map that has the same numbers, with entries that are alike. -/
def AlikeMap (m m' : Assoc Int XrefEntry) : Prop :=
  ∀ n, (m.get? n = none → m'.get? n = none) ∧ ∀ e, m.get? n = some e → ∃ e', m'.get? n = some e' ∧ Alike e e'

theorem AlikeMap.refl (m : Assoc Int XrefEntry) : AlikeMap m m := fun _ => ⟨fun h => h, fun e h => ⟨e, h, rfl, rfl, rfl⟩⟩

theorem markEncrypt_alike (o : Obj) (s s' : LS) (h : markEncrypt o s = .ok ((), s')) : AlikeMap s.xref s'.xref ∧ s'.trailer = s.trailer := by
  unfold markEncrypt at h
  split at h
  · rename_i n g
    split at h
    · rename_i e he
      cases h
      refine ⟨fun m => ?_, rfl⟩
      dsimp only
      rw [Assoc.get?_set]
      split
      · rename_i hm
        subst hm
        refine ⟨fun h => (by rw [he] at h; cases h), fun e' h => ?_⟩
        rw [he] at h
        cases h
        exact ⟨_, rfl, rfl, rfl, rfl⟩
      · exact ⟨fun h => h, fun e h => ⟨e, h, rfl, rfl, rfl⟩⟩
    · cases h; exact ⟨AlikeMap.refl _, rfl⟩
  · cases h; exact ⟨AlikeMap.refl _, rfl⟩

theorem setPassword_keeps {cfg : Cfg} {rs : Env → Resolver} {ord : Order} {pw : Bytes} {s s' : LS} {r : Option EncErr} (h : setPassword cfg rs ord pw s = .ok (r, s')) :
    s'.xref = s.xref ∧ s'.trailer = s.trailer := by
  rw [setPassword] at h
  cases hx : secInit cfg.ext (fun sh => rs { s.env cfg with sh := sh }) ord pw s.trailer s.sh s.ps with
  | ok p => rw [hx] at h; cases h; exact ⟨rfl, rfl⟩
  | panic w => rw [hx] at h; cases h
  | oof => rw [hx] at h; cases h

/-- The stages of `Load`. -/
theorem load_stages {cfg : Cfg} {ord : Order} {f fx : Nat} {pw : Bytes} {s0 s2 : LS} {r : Option EncErr} (h : load cfg ord f fx pw s0 = .ok (r, s2)) :
    ∃ offs objs sa sb sp s1 s3, findObjects cfg (fun env => resolver env f) sa = .ok (objs, sb) ∧
      loadPlan cfg (fun env => resolver env f) s0 = .ok ((offs, objs), sp) ∧
      loadAll cfg (fun env => getObject env f) (fun env => resolver env f) fx offs sp = .ok ((), s1) ∧
      repairAll cfg (ord.visit objs) s1 = .ok ((), s3) ∧ AlikeMap s3.xref s2.xref ∧ s2.trailer = s3.trailer := by
  rw [load, loadF] at h
  obtain ⟨⟨offs, objs⟩, sp, h1, h⟩ := bind_ok h
  obtain ⟨⟨⟩, s1, h2, h⟩ := bind_ok h
  obtain ⟨⟨⟩, s3, h3, h⟩ := bind_ok h
  obtain ⟨e, s4, h4, h⟩ := bind_ok h
  cases h4
  have hobj : ∃ sa sb, findObjects cfg (fun env => resolver env f) sa = .ok (objs, sb) := by
    have h1' := h1
    rw [loadPlan] at h1'
    obtain ⟨_, t1, -, h1'⟩ := bind_ok h1'
    obtain ⟨objs', t2, h5, h1'⟩ := bind_ok h1'
    obtain ⟨_, t3, -, h1'⟩ := bind_ok h1'
    cases h1'
    exact ⟨_, _, h5⟩
  obtain ⟨sa, sb, hobj⟩ := hobj
  refine ⟨offs, objs, sa, sb, sp, s1, s3, hobj, h1, h2, h3, ?_⟩
  generalize s3.trailer.get? b!"Encrypt" = enc at h
  cases enc with
  | some e =>
    obtain ⟨⟨⟩, s5, h5, h⟩ := bind_ok h
    obtain ⟨a1, a2⟩ := markEncrypt_alike _ _ _ h5
    obtain ⟨b1, b2⟩ := setPassword_keeps h
    rw [b1, b2]
    exact ⟨a1, a2⟩
  | none =>
    cases h
    exact ⟨AlikeMap.refl _, rfl⟩

theorem sections_unique {cfg : Cfg} {f fx : Nat} {s0 s1 sp : LS} {offs : List Int} {objs : Assoc Int XrefEntry} (h : SectionsLoaded cfg f fx s0 s1)
    (hp : loadPlan cfg (fun env => resolver env f) s0 = .ok ((offs, objs), sp)) {s1' : LS}
    (ha : loadAll cfg (fun env => getObject env f) (fun env => resolver env f) fx offs sp = .ok ((), s1')) : s1' = s1 := by
  obtain ⟨offs', objs', sp', h1, h2⟩ := h
  rw [hp] at h1
  cases h1
  rw [ha] at h2
  cases h2
  rfl

/-- what `Load` makes of the entry for `n` -/
theorem load_entry {cfg : Cfg} {ord : Order} {f fx : Nat} {pw : Bytes} {s0 s1 s2 : LS} {r : Option EncErr} (h : load cfg ord f fx pw s0 = .ok (r, s2)) (hs : SectionsLoaded cfg f fx s0 s1) :
    s2.trailer = s1.trailer ∧ ∃ objs : Assoc Int XrefEntry,
      (∀ pre ds gs n, Marker cfg.file pre ds gs → IsInt64Of (Spec.decVal ds) n → ∃ o, objs.get? n = some o) ∧
      (∀ n o, objs.get? n = some o → ∃ pre ds, LooseAt cfg.file pre ds ∧ IsInt64Of (Spec.decVal ds) n ∧ o.offset = pre.length ∧ o.typ = 1 ∧
        (∀ ds gs, Marker cfg.file pre ds gs → IsInt64Of (Spec.decVal gs) o.generation) ∧
        ∀ pre' ds' gs', Marker cfg.file pre' ds' gs' → IsInt64Of (Spec.decVal ds') n → pre'.length ≤ pre.length) ∧
      (∀ n e, objs.get? n = none → s1.xref.get? n = some e → ∃ e', s2.xref.get? n = some e' ∧ Alike e e') ∧
      (∀ n o, objs.get? n = some o → s1.xref.get? n = none → ∃ e', s2.xref.get? n = some e' ∧ Alike o e') ∧
      ∀ n o e, objs.get? n = some o → s1.xref.get? n = some e → ∃ e' ps, s2.xref.get? n = some e' ∧
        Alike (repaired (readObjectHeader cfg.file (seek ps e.offset)).1 n o e) e' := by
  obtain ⟨offs, objs, sa, sb, sp, s1', s3, h1, h2, h3, h4, h5, h6⟩ := load_stages h
  obtain rfl := sections_unique hs h2 h3
  obtain ⟨f1, f2, f3⟩ := findObjects_found h1
  have hv := visited ord objs
  have hget : ∀ n, Assoc.get? (ord.visit objs) n = objs.get? n := fun n => (Assoc.get?_perm hv.symm f3 n).symm
  obtain ⟨s3', g1, g2, -, g3, g4⟩ := repairAll_run cfg (ord.visit objs) ((hv.map _).nodup_iff.2 f3) s1'
  simp only [hget] at g3 g4
  rw [h4] at g1
  cases g1
  refine ⟨h6.trans g2, objs, f1, f2, ?_, ?_, ?_⟩
  · intro n e hn he
    exact (h5 n).2 e (by rw [g3 n hn, he])
  · intro n o hn he
    exact (h5 n).2 o ((g4 n o hn).1 he)
  · intro n o e hn he
    obtain ⟨ps, hps⟩ := (g4 n o hn).2 e he
    obtain ⟨e', k1, k2⟩ := (h5 n).2 _ hps
    exact ⟨e', ps, k1, k2⟩

theorem load_sections {cfg : Cfg} {ord : Order} {f fx : Nat} {pw : Bytes} {s0 s2 : LS} {r : Option EncErr} (h : load cfg ord f fx pw s0 = .ok (r, s2)) : ∃ s1, SectionsLoaded cfg f fx s0 s1 := by
  obtain ⟨offs, objs, sa, sb, sp, s1', s3, h1, h2, h3, -⟩ := load_stages h
  exact ⟨s1', offs, objs, sp, h2, h3⟩

/-! ### C26 -/

/-- **C26** After `Load` every object number for which the file has an `n g obj` marker has an entry. -/
theorem C26_known {cfg : Cfg} {ord : Order} {f fx : Nat} {pw : Bytes} {s0 s2 : LS} {r : Option EncErr} (h : load cfg ord f fx pw s0 = .ok (r, s2))
    {pre : Bytes} {ds gs : List Nat} (hm : Marker cfg.file pre ds gs) {n : Int} (hn : IsInt64Of (Spec.decVal ds) n) : ∃ e, s2.xref.get? n = some e := by
  obtain ⟨s1, hs⟩ := load_sections h
  obtain ⟨-, objs, f1, f2, -, f4, f5⟩ := load_entry h hs
  obtain ⟨o, ho⟩ := f1 pre ds gs n hm hn
  cases he : s1.xref.get? n with
  | none =>
    obtain ⟨e', h1, -⟩ := f4 n o ho he
    exact ⟨e', h1⟩
  | some e =>
    obtain ⟨e', ps, h1, -⟩ := f5 n o e ho he
    exact ⟨e', h1⟩

/-- `pre` is where the last marker for `n` is; a marker in the wider sense after it would be found too. -/
def LastMarker (file pre : Bytes) (gs : List Nat) (n : Int) : Prop :=
  (∃ ds, Marker file pre ds gs ∧ IsInt64Of (Spec.decVal ds) n) ∧
  ∀ pre' ds', LooseAt file pre' ds' → IsInt64Of (Spec.decVal ds') n → pre'.length ≤ pre.length

theorem last_found {file pre : Bytes} {gs : List Nat} {n : Int} (hl : LastMarker file pre gs n) {objs : Assoc Int XrefEntry}
    (f1 : ∀ pre ds gs n, Marker file pre ds gs → IsInt64Of (Spec.decVal ds) n → ∃ o, objs.get? n = some o)
    (f2 : ∀ n o, objs.get? n = some o → ∃ pre ds, LooseAt file pre ds ∧ IsInt64Of (Spec.decVal ds) n ∧ o.offset = pre.length ∧ o.typ = 1 ∧
        (∀ ds gs, Marker file pre ds gs → IsInt64Of (Spec.decVal gs) o.generation) ∧
        ∀ pre' ds' gs', Marker file pre' ds' gs' → IsInt64Of (Spec.decVal ds') n → pre'.length ≤ pre.length) :
    ∃ o, objs.get? n = some o ∧ o.offset = pre.length ∧ o.typ = 1 ∧ IsInt64Of (Spec.decVal gs) o.generation := by
  obtain ⟨⟨ds, hm, hn⟩, hlast⟩ := hl
  obtain ⟨o, ho⟩ := f1 pre ds gs n hm hn
  obtain ⟨pre', ds', h1, h2, h3, h4, h5, h6⟩ := f2 n o ho
  have hlen : pre'.length = pre.length := by
    have := hlast pre' ds' h1 h2
    have := h6 pre ds gs hm hn
    omega
  obtain ⟨⟨t, e, -⟩, -⟩ := h1
  obtain ⟨⟨w, w', r, e', -⟩, -⟩ := id hm
  obtain ⟨rfl, -⟩ := prefix_unique e e' hlen
  exact ⟨o, ho, h3, h4, h5 _ _ hm⟩

/-- **C26** An object that no cross reference section lists gets an entry in use that points at its last
marker, with the generation given there. -/
theorem C26_missing {cfg : Cfg} {ord : Order} {f fx : Nat} {pw : Bytes} {s0 s1 s2 : LS} {r : Option EncErr} (h : load cfg ord f fx pw s0 = .ok (r, s2)) (hs : SectionsLoaded cfg f fx s0 s1)
    {n : Int} (hno : s1.xref.get? n = none) {pre : Bytes} {gs : List Nat} (hl : LastMarker cfg.file pre gs n) :
    ∃ e, s2.xref.get? n = some e ∧ e.offset = pre.length ∧ e.typ = 1 ∧ IsInt64Of (Spec.decVal gs) e.generation := by
  obtain ⟨-, objs, f1, f2, -, f4, -⟩ := load_entry h hs
  obtain ⟨o, ho, h1, h2, h3⟩ := last_found hl f1 f2
  obtain ⟨e, h4, h5, h6, h7⟩ := f4 n o ho hno
  exact ⟨e, h4, h5.trans h1, h7.trans h2, h6 ▸ h3⟩

/-! ### C25 -/

/-- **C25, partial** An entry that points at the last marker of its object still does, and its generation
and type are unchanged. Missing: an entry that points at an earlier marker of its object
(`C25_good_false`). -/
theorem C25_good_partial {cfg : Cfg} {ord : Order} {f fx : Nat} {pw : Bytes} {s0 s1 s2 : LS} {r : Option EncErr} (h : load cfg ord f fx pw s0 = .ok (r, s2)) (hs : SectionsLoaded cfg f fx s0 s1)
    {n : Int} {e : XrefEntry} (he : s1.xref.get? n = some e) {pre : Bytes} {gs : List Nat} (hl : LastMarker cfg.file pre gs n) (hoff : e.offset = pre.length) :
    ∃ e', s2.xref.get? n = some e' ∧ Alike e e' := by
  obtain ⟨-, objs, f1, f2, -, -, f5⟩ := load_entry h hs
  obtain ⟨o, ho, h1, h2, h3⟩ := last_found hl f1 f2
  obtain ⟨e', ps, h4, h5, h6, h7⟩ := f5 n o e ho he
  refine ⟨e', h4, ?_⟩
  rw [repaired] at h5 h6 h7
  split at h5
  · rename_i hc
    rw [if_pos hc] at h6 h7
    exact ⟨h5.trans (h1.trans hoff.symm), h6, h7⟩
  · rename_i hc
    rw [if_neg hc] at h6 h7
    exact ⟨h5, h6, h7⟩

theorem other_number {file : Bytes} {off : Nat} {n : Int} (hbad : ¬ NumberAt file off n) (h0 : n ≠ 0) (ps : PS) : (readObjectHeader file (seek ps (off : Int))).1.1 ≠ n := by
  intro hn
  cases hi : lInt (rest file (seek ps (off : Int))) with
  | none =>
    rw [header_none hi] at hn
    exact h0 hn.symm
  | some q =>
    obtain ⟨v, k⟩ := q
    rw [header_number hi] at hn
    subst hn
    obtain ⟨w, ds, r, e1, hw, hne, hd, hnd, hv⟩ := lInt_inv hi
    exact hbad ⟨w, ds, r, by rw [← e1, rest, seek_pos], hw, hne, hd, hnd, hv⟩

/-- **C25, partial** An entry at whose offset another number (or none) comes first is redirected to the
last marker of its object; only the offset changes. Missing: object number 0, and entries at whose
offset the object's number comes first but not a header (`C25_bad_false`). -/
theorem C25_bad_partial {cfg : Cfg} {ord : Order} {f fx : Nat} {pw : Bytes} {s0 s1 s2 : LS} {r : Option EncErr} (h : load cfg ord f fx pw s0 = .ok (r, s2)) (hs : SectionsLoaded cfg f fx s0 s1)
    {n : Int} {e : XrefEntry} (he : s1.xref.get? n = some e) {pre : Bytes} {gs : List Nat} (hl : LastMarker cfg.file pre gs n) {off : Nat} (hoff : e.offset = off)
    (hbad : ¬ NumberAt cfg.file off n) (h0 : n ≠ 0) :
    ∃ e', s2.xref.get? n = some e' ∧ e'.offset = pre.length ∧ e'.generation = e.generation ∧ e'.typ = e.typ := by
  obtain ⟨-, objs, f1, f2, -, -, f5⟩ := load_entry h hs
  obtain ⟨o, ho, h1, h2, h3⟩ := last_found hl f1 f2
  obtain ⟨e', ps, h4, h5⟩ := f5 n o e ho he
  refine ⟨e', h4, ?_⟩
  have hc := Or.inr (a := (readObjectHeader cfg.file (seek ps e.offset)).1.2.2 = true) (hoff ▸ other_number hbad h0 ps)
  rw [repaired, if_pos hc] at h5
  exact ⟨h5.1.trans h1, h5.2⟩

/-- **C25** An entry for an object that has no marker in the file is kept. -/
theorem C25_unmarked {cfg : Cfg} {ord : Order} {f fx : Nat} {pw : Bytes} {s0 s1 s2 : LS} {r : Option EncErr} (h : load cfg ord f fx pw s0 = .ok (r, s2)) (hs : SectionsLoaded cfg f fx s0 s1)
    {n : Int} {e : XrefEntry} (he : s1.xref.get? n = some e) (hno : ∀ pre ds, LooseAt cfg.file pre ds → ¬ IsInt64Of (Spec.decVal ds) n) :
    ∃ e', s2.xref.get? n = some e' ∧ Alike e e' := by
  obtain ⟨-, objs, f1, f2, f3, -, -⟩ := load_entry h hs
  refine f3 n e ?_ he
  cases ho : objs.get? n with
  | none => rfl
  | some o =>
    obtain ⟨pre, ds, h1, h2, -⟩ := f2 n o ho
    exact absurd h2 (hno pre ds h1)

/-- **C25** Repair changes nothing but offsets: after `Load` every listed object has the generation and
type listed, and the trailer is the one the sections gave. -/
theorem C25_fields {cfg : Cfg} {ord : Order} {f fx : Nat} {pw : Bytes} {s0 s1 s2 : LS} {r : Option EncErr} (h : load cfg ord f fx pw s0 = .ok (r, s2)) (hs : SectionsLoaded cfg f fx s0 s1) :
    s2.trailer = s1.trailer ∧ ∀ n e, s1.xref.get? n = some e → ∃ e', s2.xref.get? n = some e' ∧ e'.generation = e.generation ∧ e'.typ = e.typ := by
  obtain ⟨ht, objs, f1, f2, f3, -, f5⟩ := load_entry h hs
  refine ⟨ht, fun n e he => ?_⟩
  cases ho : objs.get? n with
  | none =>
    obtain ⟨e', h1, h2⟩ := f3 n e ho he
    exact ⟨e', h1, h2.2⟩
  | some o =>
    obtain ⟨e', ps, h1, h2⟩ := f5 n o e ho he
    refine ⟨e', h1, ?_⟩
    rw [repaired] at h2
    split at h2
    · exact h2.2
    · exact h2.2

/-! ### C24 -/

theorem bindL_ok {α β : Type} {x : L α} {k : α → L β} {s t : LS} {b : β} (h : (x >>= k) s = .ok (b, t)) : ∃ a s', x s = .ok (a, s') ∧ k a s' = .ok (b, t) := by
  obtain ⟨a, s', h1, h2⟩ := bind_ok h
  exact ⟨a, s', h1, h2⟩

theorem loadAll_last (cfg : Cfg) (get : Env → Int → M IndObj) (rs : Env → Resolver) (fx : Nat) (o : Int) : ∀ (l : List Int) (s t : LS),
    loadAll cfg get rs fx (l ++ [o]) s = .ok ((), t) → ∃ s' seen, loadXref cfg get rs fx o [] s' = .ok (seen, t)
  | [], s, t, h => by
    rw [List.nil_append, loadAll] at h
    obtain ⟨seen, s', h1, h2⟩ := bindL_ok h
    cases h2
    exact ⟨s, seen, h1⟩
  | x :: l, s, t, h => by
    rw [List.cons_append, loadAll] at h
    obtain ⟨seen, s', h1, h2⟩ := bindL_ok h
    exact loadAll_last cfg get rs fx o l s' t h2

attribute [local irreducible] getStartXrefOffset in
/-- **C24** The section at the offset after `startxref` is loaded last. -/
theorem C24_startxref {cfg : Cfg} {f fx : Nat} {s0 s1 : LS} (hs : SectionsLoaded cfg f fx s0 s1) {n : Nat} (hn : EndsInStart cfg.file n) (h63 : n < 2 ^ 63) :
    ∃ s' seen, loadXref cfg (fun env => getObject env f) (fun env => resolver env f) fx n [] s' = .ok (seen, s1) := by
  obtain ⟨offs, objs, sp, h1, h2⟩ := hs
  rw [loadPlan] at h1
  obtain ⟨a, sa, -, h1⟩ := bindL_ok h1
  obtain ⟨b, sb, -, h1⟩ := bindL_ok h1
  obtain ⟨c, sc, h3, h1⟩ := bindL_ok h1
  obtain ⟨ps, h4, -⟩ := liftM_ok h3
  have h5 := getStart_text hn (by omega) sb.ps
  have hc : c = some (n : Int) := by
    have : ((getStartXrefOffset cfg.file sb.ps).1, (getStartXrefOffset cfg.file sb.ps).2) = (c, ps) := Res.ok.inj h4
    rw [← h5, (Prod.mk.inj this).1]
  subst hc
  cases h1
  exact loadAll_last _ _ _ _ _ _ _ _ h2

theorem _root_.Pdf.Assoc.get?_of_mem {κ α : Type} [DecidableEq κ] {m : Assoc κ α} (h : (m.map (·.1)).Nodup) {k : κ} {v : α} (hm : (k, v) ∈ m) : m.get? k = some v := by
  induction m with
  | nil => cases hm
  | cons p t ih =>
    rw [List.map_cons, List.nodup_cons] at h
    rw [Assoc.get?_cons]
    rcases List.mem_cons.1 hm with rfl | hm
    · exact if_pos rfl
    · rw [if_neg fun e : p.1 = k => h.1 (e ▸ List.mem_map_of_mem (f := Prod.fst) hm)]
      exact ih h.2 hm

/-- Sections at the offsets loaded one after the other. -/
inductive LoadedInTurn (cfg : Cfg) (f fx : Nat) : List Int → LS → LS → Prop
  | nil {s} : LoadedInTurn cfg f fx [] s s
  | cons {o l s s' s'' seen} : loadXref cfg (fun env => getObject env f) (fun env => resolver env f) fx o [] s = .ok (seen, s') →
      LoadedInTurn cfg f fx l s' s'' → LoadedInTurn cfg f fx (o :: l) s s''

theorem loadAll_inTurn {cfg : Cfg} {f fx : Nat} : ∀ (l : List Int) (s s' : LS),
    loadAll cfg (fun env => getObject env f) (fun env => resolver env f) fx l s = .ok ((), s') → LoadedInTurn cfg f fx l s s' := by
  intro l
  induction l with
  | nil => intro s s' h; cases h; exact .nil
  | cons o l ih =>
    intro s s' h
    rw [loadAll] at h
    obtain ⟨seen, s1, h1, h2⟩ := bindL_ok h
    exact .cons h1 (ih _ _ h2)

theorem insertSorted_sorted (x : Int) : ∀ l : List Int, l.Pairwise (· ≤ ·) → (insertSorted x l).Pairwise (· ≤ ·) := by
  intro l
  induction l with
  | nil => intro _; exact List.pairwise_singleton _ _
  | cons y t ih =>
    intro h
    rw [insertSorted]
    split
    · rename_i hxy
      refine List.pairwise_cons.2 ⟨fun z hz => ?_, h⟩
      rcases List.mem_cons.1 hz with rfl | hz
      · exact hxy
      · exact Int.le_trans hxy ((List.pairwise_cons.1 h).1 z hz)
    · rename_i hxy
      refine List.pairwise_cons.2 ⟨fun z hz => ?_, ih (List.pairwise_cons.1 h).2⟩
      rcases mem_insertSorted.1 hz with rfl | hz
      · omega
      · exact (List.pairwise_cons.1 h).1 z hz

theorem sortInts_sorted : ∀ l : List Int, (sortInts l).Pairwise (· ≤ ·) := by
  intro l
  induction l with
  | nil => exact List.Pairwise.nil
  | cons x l ih => exact insertSorted_sorted x _ ih

/-- the scan for `xref` finds exactly the places where it stands -/
theorem findXrefLoop_iff (file : Bytes) : ∀ (f off : Nat) (acc : List Int), file.length < f + off → off ≤ file.length → ∀ o : Int,
    o ∈ findXrefLoop file f off acc ↔ o ∈ acc ∨ ∃ pre r : Bytes, file = pre ++ (b!"xref" ++ r) ∧ off ≤ pre.length ∧ o = pre.length := by
  intro f
  induction f with
  | zero => intro off acc h1 h2; omega
  | succ f ih =>
    intro off acc h1 h2 o
    rw [findXrefLoop]
    cases hre : findRe xrefRe 0 (file.drop off) with
    | none =>
      dsimp only
      constructor
      · exact .inl
      · rintro (h | ⟨pre, r, e, hl, -⟩)
        · exact h
        · exfalso
          have := findRe_none hre (pre.drop off) (b!"xref" ++ r) (by rw [e, List.drop_append_of_le_length hl])
          have h5 : r ∈ xrefRe (b!"xref" ++ r) := (mem_reLit _ _ _).2 rfl
          rw [this] at h5
          cases h5
    | some p =>
      obtain ⟨i, j⟩ := p
      dsimp only
      obtain ⟨a, b, rest', e1, e2, e3, e4, e5⟩ := findRe_some hre
      rw [Nat.zero_add] at e2
      have e3' := (mem_reLit _ _ _).1 e3
      subst e2
      have hfile : file = (file.take off ++ a) ++ (b!"xref" ++ rest') := by
        rw [List.append_assoc, ← e3', ← e1, List.take_append_drop]
      have hplen : (file.take off ++ a).length = off + a.length := by rw [List.length_append, List.length_take, Nat.min_eq_left h2]
      generalize hP : file.take off ++ a = P at hfile hplen
      have hj : j = a.length + 4 := by rw [e4, e3', List.length_append]; simp only [List.length_cons, List.length_nil]; omega
      have hl : file.length = P.length + (4 + rest'.length) := by rw [hfile, List.length_append, List.length_append]; rfl
      rw [ih (off + j) _ (by omega) (by omega) o, List.mem_append, List.mem_singleton]
      constructor
      · rintro ((h | h) | ⟨pre, r, e, hl, h⟩)
        · exact .inl h
        · exact .inr ⟨P, rest', hfile, by omega, by rw [hplen]; exact h⟩
        · exact .inr ⟨pre, r, e, by omega, h⟩
      · rintro (h | ⟨pre, r, e, hle, h⟩)
        · exact .inl (.inl h)
        · by_cases hge : off + j ≤ pre.length
          · exact .inr ⟨pre, r, e, hge, h⟩
          · left; right
            have hge2 : P.length ≤ pre.length := by
              by_cases hlt2 : pre.length < P.length
              · exfalso
                have h5 := e5 (pre.drop off) (b!"xref" ++ r) (by rw [e, List.drop_append_of_le_length hle]) (by rw [List.length_drop]; omega)
                have h6 : r ∈ xrefRe (b!"xref" ++ r) := (mem_reLit _ _ _).2 rfl
                rw [h5] at h6
                cases h6
              · omega
            -- two occurrences less than four bytes apart coincide
            obtain ⟨k, hk⟩ : ∃ k, pre.length = P.length + k := ⟨_, (Nat.add_sub_of_le hge2).symm⟩
            have hk4 : k < 4 := by omega
            have d1 : file.drop pre.length = b!"xref" ++ r := by rw [e, List.drop_left]
            have d2 : file.drop pre.length = (b!"xref" ++ rest').drop k := by
              rw [hk, ← List.drop_drop]; congr 1; rw [hfile, List.drop_left]
            rw [d1] at d2
            have hk0 : k = 0 := by
              match k, hk4, d2 with
              | 0, _, _ => rfl
              | 1, _, d2 => cases d2
              | 2, _, d2 => cases d2
              | 3, _, d2 => cases d2
            rw [h, hk, hk0, Nat.add_zero, hplen]

attribute [local irreducible] getStartXrefOffset in
/-- **C24** `Load` loads sections in the order of their places in the file and the one after `startxref` at the
end: at every place where `xref` stands and at every object found by scanning whose dictionary says
that it is a cross reference stream, and nowhere else. -/
theorem C24_plan {cfg : Cfg} {f fx : Nat} {s0 s1 : LS} (hs : SectionsLoaded cfg f fx s0 s1) :
    ∃ (l : List Int) (start : Option Int) (sp : LS), LoadedInTurn cfg f fx (l ++ start.toList) sp s1 ∧ l.Pairwise (· ≤ ·) ∧
      (∀ pre r : Bytes, cfg.file = pre ++ (b!"xref" ++ r) → (pre.length : Int) ∈ l) ∧
      (∀ (n : Int) (pre : Bytes) (gs : List Nat) (es : List (Bytes × Obj)), LastMarker cfg.file pre gs n → HasDict cfg.file pre.length es →
        (dictOf es).get? b!"Type" = some (.name b!"XRef") → (pre.length : Int) ∈ l) ∧
      (∀ o ∈ l, (∃ pre r : Bytes, cfg.file = pre ++ (b!"xref" ++ r) ∧ o = pre.length) ∨
        ∃ pre ds, LooseAt cfg.file pre ds ∧ o = pre.length ∧ ∀ es ty, HasDict cfg.file pre.length es → (dictOf es).get? b!"Type" = some (.name ty) → ty = b!"XRef") ∧
      (∀ n : Nat, EndsInStart cfg.file n → n < 2 ^ 63 → start = some (n : Int)) := by
  obtain ⟨offs, objs, sp, h1, h2⟩ := hs
  rw [loadPlan] at h1
  obtain ⟨a, sa, ha, h1⟩ := bindL_ok h1
  obtain ⟨b, sb, hb, h1⟩ := bindL_ok h1
  obtain ⟨c, sc, h3, h1⟩ := bindL_ok h1
  obtain ⟨ps, h4, -⟩ := liftM_ok h3
  obtain ⟨psa, ha', -⟩ := liftM_ok ha
  have hc : (getStartXrefOffset cfg.file sb.ps).1 = c := by
    have : ((getStartXrefOffset cfg.file sb.ps).1, (getStartXrefOffset cfg.file sb.ps).2) = (c, ps) := Res.ok.inj h4
    exact (Prod.mk.inj this).1
  have hae : a = findXrefLoop cfg.file (cfg.file.length + 1) 0 [] := by
    have : findXrefOffsets cfg.file s0.ps = (a, psa) := Res.ok.inj ha'
    exact (congrArg Prod.fst this).symm
  have hx : ∀ o : Int, o ∈ a ↔ ∃ pre r : Bytes, cfg.file = pre ++ (b!"xref" ++ r) ∧ o = pre.length := by
    intro o
    rw [hae, findXrefLoop_iff cfg.file _ 0 [] (by omega) (Nat.zero_le _)]
    constructor
    · rintro (h | ⟨pre, r, e, -, h⟩)
      · cases h
      · exact ⟨pre, r, e, h⟩
    · rintro ⟨pre, r, e, h⟩
      exact .inr ⟨pre, r, e, Nat.zero_le _, h⟩
  obtain ⟨f1, f2, f3⟩ := findObjects_found hb
  have f4 := findObjects_dict hb
  cases h1
  refine ⟨_, _, sp, loadAll_inTurn _ _ _ h2, sortInts_sorted _, ?_, ?_, ?_, ?_⟩
  · intro pre r e
    exact mem_sortInts.2 (List.mem_append_left _ ((hx _).2 ⟨pre, r, e, rfl⟩))
  · intro n pre gs es hl hd hty
    obtain ⟨o, ho, k1, -, -⟩ := last_found hl f1 f2
    refine mem_sortInts.2 (List.mem_append_right _ (List.mem_map.2 ⟨(n, o), List.mem_filter.2 ⟨Assoc.get?_some_mem ho, ?_⟩, k1⟩))
    have := f4 n o es ho (by rw [k1, Int.toNat_natCast]; exact hd) _ hty
    rw [this]; decide
  · intro o ho
    rcases List.mem_append.1 (mem_sortInts.1 ho) with ho | ho
    · exact .inl ((hx o).1 ho)
    · obtain ⟨⟨n, x⟩, hm, rfl⟩ := List.mem_map.1 ho
      obtain ⟨hm, hxs⟩ := List.mem_filter.1 hm
      have hg := Assoc.get?_of_mem f3 hm
      obtain ⟨pre, ds, k1, -, k2, -⟩ := f2 n x hg
      refine .inr ⟨pre, ds, k1, k2, fun es ty hd hty => ?_⟩
      have := f4 n x es hg (by rw [k2, Int.toNat_natCast]; exact hd) ty hty
      rw [this] at hxs
      exact of_decide_eq_true hxs
  · intro n hn h63
    rw [← hc]
    exact getStart_text hn (by omega) sb.ps

/-- **C24** A file that ends in `startxref`, the offset of a table and `%%EOF`: after `Load` every object
number that table lists has the generation and type listed there, and every key of its trailer has
the value listed there, whatever the other sections say (for the offsets see C25). -/
theorem C24_load {cfg : Cfg} {ord : Order} {f fx : Nat} {pw : Bytes} {s0 s2 : LS} {r : Option EncErr} (h : load cfg ord f fx pw s0 = .ok (r, s2))
    {off : Nat} (hn : EndsInStart cfg.file off) (h63 : off < 2 ^ 63)
    {ss : List (Nat × List Line)} {T t z : Bytes} {es : List (Bytes × Obj)} {e : List Err}
    (hT : TableText ss T) (hd : DictAny es t z e) (hin : cfg.file.drop off = T ++ (60 :: 60 :: (t ++ z))) (hbuf : T.length % 4096 ≠ 4095)
    {p : Option Int} (hp : PrevIs (dictOf es) p) :
    (∀ n x, lastFor (listed ss) n = some x → ∃ x', s2.xref.get? n = some x' ∧ x'.generation = x.generation ∧ x'.typ = x.typ) ∧
    ∀ k v, (dictOf es).get? k = some v → s2.trailer.get? k = some v := by
  obtain ⟨s1, hs⟩ := load_sections h
  obtain ⟨s', seen, hx⟩ := C24_startxref hs hn h63
  cases fx with
  | zero => cases hx
  | succ fx =>
    obtain ⟨_, -, -, -, -, h1⟩ := C24_table cfg (fun env => getObject env f) (fun env => resolver env f) (seen := []) s' hT hd hin hbuf (by simp) fx hp
    obtain ⟨sq, -, h2, h3, -⟩ := h1 _ _ hx
    obtain ⟨ht, hf⟩ := C25_fields h hs
    refine ⟨fun n x hl => hf n x ?_, fun k v hk => ?_⟩
    · rw [h2, hl]; rfl
    · rw [ht, h3, hk]; rfl

/-! ### Concrete files -/

/-- a marker after text without `%` -/
theorem marker_plain {file pre w w' r : Bytes} {ds gs : List Nat} (h : file = pre ++ (ds.map decDigit ++ (w ++ (gs.map decDigit ++ (w' ++ (b!"obj" ++ r))))))
    (hw : White w) (hw' : White w') (hr : Stops r) (hd : ds ≠ [] ∧ ∀ d ∈ ds, d < 10) (hg : gs ≠ [] ∧ ∀ d ∈ gs, d < 10)
    (hlast : (pre.getLast?.all fun b => !isDigit b) = true) (hc : 37 ∉ pre) : Marker file pre ds gs := by
  refine ⟨⟨w, w', r, h, hw, hw', hr⟩, hd, hg, ?_, ?_⟩
  · rintro a b rfl hb
    rw [List.getLast?_append] at hlast
    have := (isDigit_dec b).2 hb
    simp [this] at hlast
  · rintro a c rfl
    exact absurd (by simp) hc

/-- no marker after a position -/
theorem last_plain {file pre : Bytes} {ds gs : List Nat} {n : Int} (hm : Marker file pre ds gs) (hn : IsInt64Of (Spec.decVal ds) n)
    (h : findRe objRe 0 (file.drop (pre.length + 1)) = none) : LastMarker file pre gs n := by
  refine ⟨⟨ds, hm, hn⟩, ?_⟩
  rintro pre' ds' ⟨⟨t, e, hl⟩, -⟩ -
  by_cases hlt : pre'.length ≤ pre.length
  · exact hlt
  · exfalso
    refine loose_re hl (findRe_none h (pre'.drop (pre.length + 1)) t ?_)
    rw [e, List.drop_append_of_le_length (by omega)]

/-- the sections of a file, loaded -/
def sectionsRun (cfg : Cfg) (f fx : Nat) (s0 : LS) : Res (Unit × LS) :=
  match loadPlan cfg (fun env => resolver env f) s0 with
  | .ok ((offs, _), sp) => loadAll cfg (fun env => getObject env f) (fun env => resolver env f) fx offs sp
  | _ => .oof

theorem sectionsRun_of {cfg : Cfg} {f fx : Nat} {s0 s1 : LS} (h : SectionsLoaded cfg f fx s0 s1) : sectionsRun cfg f fx s0 = .ok ((), s1) := by
  obtain ⟨offs, objs, sp, h1, h2⟩ := h
  rw [sectionsRun, h1]
  exact h2

theorem loads_of {cfg : Cfg} {ord : Order} {f fx : Nat} {pw : Bytes} {s0 : LS} (h : (match load cfg ord f fx pw s0 with | .ok _ => true | _ => false) = true) :
    ∃ r s1 s2, load cfg ord f fx pw s0 = .ok (r, s2) ∧ SectionsLoaded cfg f fx s0 s1 := by
  cases hl : load cfg ord f fx pw s0 with
  | ok p =>
    obtain ⟨s1, h1⟩ := load_sections hl
    exact ⟨p.1, s1, p.2, rfl, h1⟩
  | panic w => rw [hl] at h; cases h
  | oof => rw [hl] at h; cases h

theorem sections_entry {cfg : Cfg} {f fx : Nat} {s0 s1 : LS} (h : SectionsLoaded cfg f fx s0 s1) {n : Int} {x : Option XrefEntry}
    (hx : (match sectionsRun cfg f fx s0 with | .ok (_, s) => some (s.xref.get? n) | _ => none) = some x) : s1.xref.get? n = x := by
  rw [sectionsRun_of h] at hx
  exact Option.some.inj hx

theorem load_entry_eval {cfg : Cfg} {ord : Order} {f fx : Nat} {pw : Bytes} {s0 s2 : LS} {r : Option EncErr} (h : load cfg ord f fx pw s0 = .ok (r, s2)) {n : Int} {x : Option XrefEntry}
    (hx : (match load cfg ord f fx pw s0 with | .ok (_, s) => some (s.xref.get? n) | _ => none) = some x) : s2.xref.get? n = x := by
  rw [h] at hx
  exact Option.some.inj hx

/-- The hypotheses of `C24_plan` and of its third part: an object that says that it is a cross reference stream,
and a table. -/
def streamAndTable : Cfg := ⟨b!"1 0 obj<</Type/XRef>> endobj xref\n0 1\n0 9 f \ntrailer<</Size 2>>", Concrete.ext, some false⟩

theorem streamAndTable_marker : LastMarker streamAndTable.file [] [0] 1 :=
  last_plain (ds := [1]) (marker_plain (w := [32]) (w' := [32]) (r := streamAndTable.file.drop 7) rfl ⟨by decide, by decide⟩ ⟨by decide, by decide⟩ (by rintro b t ⟨⟩; decide)
    ⟨by decide, by decide⟩ ⟨by decide, by decide⟩ rfl (by decide)) ⟨by decide, by decide, 0, rfl⟩ (by decide +kernel)

theorem streamAndTable_dict : HasDict streamAndTable.file 0 [(b!"Type", .name b!"XRef")] :=
  ⟨[1], [0], b!"1 0 obj", [], b!"/Type/XRef>>", streamAndTable.file.drop 21, [],
    .mk (w := []) (w1 := [32]) (w2 := [32]) .nil (by decide) (by decide) (.ws (by decide) .nil) (by decide) (by decide) (by decide) (.ws (by decide) .nil), .nil,
    .cons (w := []) (kt := b!"Type") (w' := []) (t := b!"/XRef") (u := b!">>") (e := []) (e' := []) .nil
      (.plain (by decide) (by decide) <| .plain (by decide) (by decide) <| .plain (by decide) (by decide) <| .plain (by decide) (by decide) .nil)
      .nil (by rintro b t ⟨⟩; decide)
      (.name (.plain (by decide) (by decide) <| .plain (by decide) (by decide) <| .plain (by decide) (by decide) <| .plain (by decide) (by decide) .nil) (by rintro b t ⟨⟩; decide))
      (.nil (w := []) .nil), rfl, by decide⟩

example : ∃ s1 l start sp, SectionsLoaded streamAndTable 2 3 LS.init s1 ∧ LoadedInTurn streamAndTable 2 3 (l ++ Option.toList start) sp s1 ∧ (0 : Int) ∈ l ∧ (29 : Int) ∈ l := by
  obtain ⟨r, s1, s2, h1, h2⟩ : ∃ r s1 s2, load streamAndTable default 2 3 [] LS.init = .ok (r, s2) ∧ SectionsLoaded streamAndTable 2 3 LS.init s1 := loads_of (by decide +kernel)
  obtain ⟨l, start, sp, h3, -, h4, h5, -⟩ := C24_plan h2
  exact ⟨s1, l, start, sp, h2, h3, h5 1 [] [0] _ streamAndTable_marker streamAndTable_dict rfl, h4 (streamAndTable.file.take 29) (streamAndTable.file.drop 33) rfl⟩

/-- Two objects with the same number; the table points at the first. -/
def twice : Cfg := ⟨b!"1 0 obj 5 endobj 1 0 obj 6 endobj xref\n0 2\n0 9 f \n0 0 n \ntrailer<</Size 2>>", Concrete.ext, some false⟩

theorem twice_first : Marker twice.file [] [1] [0] :=
  marker_plain (w := [32]) (w' := [32]) (r := twice.file.drop 7) rfl ⟨by decide, by decide⟩ ⟨by decide, by decide⟩ (by rintro b t ⟨⟩; decide) ⟨by decide, by decide⟩ ⟨by decide, by decide⟩ rfl (by decide)

theorem twice_last : LastMarker twice.file (twice.file.take 17) [0] 1 :=
  last_plain (ds := [1]) (marker_plain (w := [32]) (w' := [32]) (r := twice.file.drop 24) rfl ⟨by decide, by decide⟩ ⟨by decide, by decide⟩ (by rintro b t ⟨⟩; decide)
    ⟨by decide, by decide⟩ ⟨by decide, by decide⟩ rfl (by decide)) ⟨by decide, by decide, 0, rfl⟩ (by decide +kernel)

theorem twice_loads : ∃ r s1 s2, load twice default 2 3 [] LS.init = .ok (r, s2) ∧ SectionsLoaded twice 2 3 LS.init s1 := loads_of (by decide +kernel)

/-- **C25 fails**: an entry that points at a header of its own object is redirected when the file has a
later marker for that object (the condition in `Load` should read `!ok`). -/
theorem C25_good_false : ¬ ∀ (cfg : Cfg) (ord : Order) (f fx : Nat) (s1 s2 : LS) (r : Option EncErr), load cfg ord f fx [] LS.init = .ok (r, s2) → SectionsLoaded cfg f fx LS.init s1 →
    ∀ n e pre ds gs, s1.xref.get? n = some e → Marker cfg.file pre ds gs → IsInt64Of (Spec.decVal ds) n → e.offset = pre.length →
    ∃ e', s2.xref.get? n = some e' ∧ e'.offset = e.offset := by
  intro h
  obtain ⟨r, s1, s2, h1, h2⟩ := twice_loads
  have e1 := sections_entry h2 (n := 1) (x := some ⟨0, 0, 1, true, false⟩) (by decide +kernel)
  obtain ⟨e', h3, h4⟩ := h twice default 2 3 s1 s2 r h1 h2 1 _ [] [1] [0] e1 twice_first ⟨by decide, by decide, 0, rfl⟩ rfl
  have e2 := load_entry_eval h1 (n := 1) (x := some ⟨17, 0, 1, true, false⟩) (by decide +kernel)
  rw [e2] at h3
  cases h3
  exact absurd h4 (by decide)

/-- The hypotheses of `C25_good_partial` and `C26_known`: the same file with the table pointing at the second object. -/
def second : Cfg := ⟨b!"1 0 obj 5 endobj 1 0 obj 6 endobj xref\n0 2\n0 9 f \n17 0 n \ntrailer<</Size 2>>", Concrete.ext, some false⟩

example : ∃ r s1 s2 e e', load second default 2 3 [] LS.init = .ok (r, s2) ∧ SectionsLoaded second 2 3 LS.init s1 ∧ s1.xref.get? 1 = some e ∧ e.offset = 17 ∧
    s2.xref.get? 1 = some e' ∧ Alike e e' := by
  obtain ⟨r, s1, s2, h1, h2⟩ : ∃ r s1 s2, load second default 2 3 [] LS.init = .ok (r, s2) ∧ SectionsLoaded second 2 3 LS.init s1 := loads_of (by decide +kernel)
  have e1 := sections_entry h2 (n := 1) (x := some ⟨17, 0, 1, true, false⟩) (by decide +kernel)
  have hl : LastMarker second.file (second.file.take 17) [0] 1 :=
    last_plain (ds := [1]) (marker_plain (w := [32]) (w' := [32]) (r := second.file.drop 24) rfl ⟨by decide, by decide⟩ ⟨by decide, by decide⟩ (by rintro b t ⟨⟩; decide)
      ⟨by decide, by decide⟩ ⟨by decide, by decide⟩ rfl (by decide)) ⟨by decide, by decide, 0, rfl⟩ (by decide +kernel)
  obtain ⟨e', h3, h4⟩ := C25_good_partial h1 h2 e1 hl rfl
  exact ⟨r, s1, s2, _, e', h1, h2, e1, rfl, h3, h4⟩

/-- An entry at whose offset the object's number comes first, but not its header. -/
def wrongWord : Cfg := ⟨b!"5 0 x 5 0 obj 6 endobj xref\n5 1\n0 0 n \ntrailer<</Size 6>>", Concrete.ext, some false⟩

theorem wrongWord_last : LastMarker wrongWord.file (wrongWord.file.take 6) [0] 5 :=
  last_plain (ds := [5]) (marker_plain (w := [32]) (w' := [32]) (r := wrongWord.file.drop 13) rfl ⟨by decide, by decide⟩ ⟨by decide, by decide⟩ (by rintro b t ⟨⟩; decide)
    ⟨by decide, by decide⟩ ⟨by decide, by decide⟩ rfl (by decide)) ⟨by decide, by decide, 0, rfl⟩ (by decide +kernel)

/-- **C25 fails**: an entry that does not point at a header is kept when the object's number and another
number come first there. -/
theorem C25_bad_false : ¬ ∀ (cfg : Cfg) (ord : Order) (f fx : Nat) (s1 s2 : LS) (r : Option EncErr), load cfg ord f fx [] LS.init = .ok (r, s2) → SectionsLoaded cfg f fx LS.init s1 →
    ∀ n e pre gs (off : Nat), s1.xref.get? n = some e → LastMarker cfg.file pre gs n → e.offset = off →
    (∀ ds gs h r, HeaderText ds gs h → Stops r → cfg.file.drop off ≠ h ++ r) → ∃ e', s2.xref.get? n = some e' ∧ e'.offset = pre.length := by
  intro h
  obtain ⟨r, s1, s2, h1, h2⟩ : ∃ r s1 s2, load wrongWord default 2 3 [] LS.init = .ok (r, s2) ∧ SectionsLoaded wrongWord 2 3 LS.init s1 := loads_of (by decide +kernel)
  have e1 := sections_entry h2 (n := 5) (x := some ⟨0, 0, 1, true, false⟩) (by decide +kernel)
  obtain ⟨e', h3, h4⟩ := h wrongWord default 2 3 s1 s2 r h1 h2 5 _ _ _ 0 e1 wrongWord_last rfl (by
    intro ds gs x y hh hy e
    obtain ⟨_, _, -, -, h3, -⟩ := readObjectHeader_text hh hy wrongWord.file ⟨0, wrongWord.file.length, false, []⟩ (by exact e)
    have h4 : (readObjectHeader wrongWord.file ⟨0, wrongWord.file.length, false, []⟩).1.2.2 = false := by decide +kernel
    rw [h3] at h4
    cases h4)
  have e2 := load_entry_eval h1 (n := 5) (x := some ⟨0, 0, 1, true, false⟩) (by decide +kernel)
  rw [e2] at h3
  cases h3
  exact absurd h4 (by decide)

/-- The hypotheses of `C25_bad_partial`: the table points at the wrong place. -/
def offByOne : Cfg := ⟨b!"5 0 x 5 0 obj 6 endobj xref\n5 1\n2 0 n \ntrailer<</Size 6>>", Concrete.ext, some false⟩

example : ∃ r s1 s2 e e', load offByOne default 2 3 [] LS.init = .ok (r, s2) ∧ SectionsLoaded offByOne 2 3 LS.init s1 ∧ s1.xref.get? 5 = some e ∧ e.offset = 2 ∧
    s2.xref.get? 5 = some e' ∧ e'.offset = 6 := by
  obtain ⟨r, s1, s2, h1, h2⟩ : ∃ r s1 s2, load offByOne default 2 3 [] LS.init = .ok (r, s2) ∧ SectionsLoaded offByOne 2 3 LS.init s1 := loads_of (by decide +kernel)
  have e1 := sections_entry h2 (n := 5) (x := some ⟨2, 0, 1, true, false⟩) (by decide +kernel)
  have hl : LastMarker offByOne.file (offByOne.file.take 6) [0] 5 :=
    last_plain (ds := [5]) (marker_plain (w := [32]) (w' := [32]) (r := offByOne.file.drop 13) rfl ⟨by decide, by decide⟩ ⟨by decide, by decide⟩ (by rintro b t ⟨⟩; decide)
      ⟨by decide, by decide⟩ ⟨by decide, by decide⟩ rfl (by decide)) ⟨by decide, by decide, 0, rfl⟩ (by decide +kernel)
  obtain ⟨e', h3, h4, -⟩ := C25_bad_partial h1 h2 e1 hl (off := 2) rfl (by
    rintro ⟨w, ds, r, e, hw, hne, hd, hr, hv⟩
    obtain ⟨y, hy, h⟩ := lInt_digits hw ds hd hne r hr
    rw [← e] at h
    have h0 : lInt (offByOne.file.drop 2) = some (0, 1) := by decide +kernel
    rw [h0] at h
    have hy0 : (0 : Int) = y := congrArg Prod.fst (Option.some.inj h)
    subst hy0
    exact absurd (IsInt64Of.unique hv hy) (by decide)) (by decide)
  exact ⟨r, s1, s2, _, e', h1, h2, e1, rfl, h3, h4⟩

/-- The hypotheses of `C26_missing`: a file without any cross reference section. -/
def noTable : Cfg := ⟨b!"1 0 obj 5 endobj 2 3 obj 6 endobj", Concrete.ext, some false⟩

example : ∃ r s2 e, load noTable default 2 3 [] LS.init = .ok (r, s2) ∧ s2.xref.get? 2 = some e ∧ e.offset = 17 ∧ e.typ = 1 ∧ IsInt64Of 3 e.generation := by
  obtain ⟨r, s1, s2, h1, h2⟩ : ∃ r s1 s2, load noTable default 2 3 [] LS.init = .ok (r, s2) ∧ SectionsLoaded noTable 2 3 LS.init s1 := loads_of (by decide +kernel)
  have e1 := sections_entry h2 (n := 2) (x := none) (by decide +kernel)
  have hl : LastMarker noTable.file (noTable.file.take 17) [3] 2 :=
    last_plain (ds := [2]) (marker_plain (w := [32]) (w' := [32]) (r := noTable.file.drop 24) rfl ⟨by decide, by decide⟩ ⟨by decide, by decide⟩ (by rintro b t ⟨⟩; decide)
      ⟨by decide, by decide⟩ ⟨by decide, by decide⟩ rfl (by decide)) ⟨by decide, by decide, 0, rfl⟩ (by decide +kernel)
  obtain ⟨e, h3, h4, h5, h6⟩ := C26_missing h1 h2 e1 hl
  exact ⟨r, s2, e, h1, h3, h4, h5, h6⟩

/-- The hypotheses of `C24_load`: two entries, trailer, `startxref`. -/
def wholeFile : Cfg := ⟨b!"xref\n0 2\n0 9 f \n7 3 n \ntrailer<</Size 2>>\nstartxref\n0\n%%EOF", Concrete.ext, some false⟩

theorem wholeFile_table : TableText [(0, [⟨0, 9, false⟩, ⟨7, 3, true⟩])] b!"xref\n0 2\n0 9 f \n7 3 n \ntrailer" :=
  have nl : Gap [10] := ⟨.ws (by decide) .nil, by decide⟩
  have sp : Gap [32] := ⟨.ws (by decide) .nil, by decide⟩
  have sn : Gap [32, 10] := ⟨.ws (by decide) (.ws (by decide) .nil), by decide⟩
  have num : ∀ n, n < 10 → NatText n [decDigit n] := fun n hn => by
    have := NatText.mk (ds := [n]) (by simpa using hn) (by simp) (by simp [Spec.decVal]; omega)
    simpa [Spec.decVal] using this
  .mk (w := []) (st := b!"\n0 2\n0 9 f \n7 3 n") (w1 := [32, 10]) (w2 := []) .nil
    (.cons (ls := [⟨0, 9, false⟩, ⟨7, 3, true⟩]) nl (num 0 (by decide)) sp (num 2 (by decide)) (.cons (u := false) (ls := [⟨7, 3, true⟩]) nl (num 0 (by decide)) sp (num 9 (by decide)) sp
      (.cons sn (num 7 (by decide)) sp (num 3 (by decide)) sp .nil)) (by decide) .nil) sn .nil

theorem wholeFile_trailer : DictAny [(b!"Size", .num (intNum false (Spec.decVal [2])))] b!"/Size 2>>" b!"\nstartxref\n0\n%%EOF" [] :=
  .cons (w := []) (kt := b!"Size") (w' := b!" ") (t := b!"2") (u := b!">>") (e := []) (e' := []) .nil
    (.plain (by decide) (by decide) <| .plain (by decide) (by decide) <| .plain (by decide) (by decide) <| .plain (by decide) (by decide) .nil)
    (.ws (by decide) .nil) (by rintro b t ⟨⟩; decide)
    (.int (sg := []) (ds := [2]) .none (by decide) (by decide) (by decide) (by rintro b t ⟨⟩; decide) (by rintro u ⟨⟩) (not_refTail_of (by decide)))
    (.nil (w := []) .nil)

theorem wholeFile_ends : EndsInStart wholeFile.file 0 :=
  ⟨wholeFile.file.take 42, [10], [10], [], [0], rfl, by decide, by decide, by decide, rfl, by decide, by
    intro x y h
    have := congrArg List.length h
    simp at this⟩

example : ∃ r s2, load wholeFile default 2 3 [] LS.init = .ok (r, s2) ∧ (∃ e, s2.xref.get? 1 = some e ∧ e.generation = 3 ∧ e.typ = 1) ∧
    s2.trailer.get? b!"Size" = some (.num (intNum false 2)) := by
  obtain ⟨r, s1, s2, h1, h2⟩ : ∃ r s1 s2, load wholeFile default 2 3 [] LS.init = .ok (r, s2) ∧ SectionsLoaded wholeFile 2 3 LS.init s1 := loads_of (by decide +kernel)
  obtain ⟨h3, h4⟩ := C24_load h1 wholeFile_ends (by decide) wholeFile_table wholeFile_trailer rfl (by decide) (.absent (by decide))
  exact ⟨r, s2, h1, h3 1 ⟨7, 3, 1, true, false⟩ (by decide), h4 _ _ rfl⟩

/-! ### C60 -/

theorem numberedFields_mem : ∀ (fs : List Field) (a : Nat) {p : Int × XrefEntry}, p ∈ numberedFields a fs → ∃ f ∈ fs, p.2 = f.entry
  | [], _, p, h => by cases h
  | f :: fs, a, p, h => by
    rcases List.mem_cons.1 h with rfl | h
    · exact ⟨f, by simp, rfl⟩
    · obtain ⟨g, h1, h2⟩ := numberedFields_mem fs (a + 1) h
      exact ⟨g, List.mem_cons_of_mem _ h1, h2⟩

/-- **C60 fails** for every cross reference stream (as in `C24_stream`) whose first width is 0: each object
it lists, other than the stream itself, gets type 0, free, where the specification says 1, in use. -/
theorem C60_zero (cfg : Cfg) (get : Env → Int → M IndObj) (rs : Env → Resolver) {off : Nat} {seen : List Int} (s : LS)
    {ds gs : List Nat} {h r : Bytes} (hh : HeaderText ds gs h) (hs : Stops r) (hin : cfg.file.drop off = h ++ r)
    (hds : Spec.decVal ds < 2 ^ 63) (hgs : Spec.decVal gs < 2 ^ 63)
    {d : Dict} {data : Bytes} {m g' : Int}
    (hget : ∀ ps, ∃ ps', get ⟨cfg.file, s.xref.set (Spec.decVal ds) ⟨off, Spec.decVal gs, 1, false, false⟩, s.sh, cfg.ext, cfg.verbose⟩ (Spec.decVal ds) ps =
      .ok (⟨m, g', .dict d, some data⟩, ps')) (hdn : (d.map (·.1)).Nodup)
    {ss : List (Nat × List Field)} {w1 w2 : Nat} {more : List Obj} {extra : Bytes}
    (hidx : d.get? b!"Index" = some (.arr (indexOf ss)) ∨
      d.get? b!"Index" = none ∧ ∃ fs, ss = [(0, fs)] ∧ d.get? b!"Size" = some (.num (.fin (fs.length : Nat))))
    (hW : d.get? b!"W" = some (.arr (.num (.fin (0 : Nat)) :: .num (.fin (w1 : Nat)) :: .num (.fin (w2 : Nat)) :: more)))
    (hw1 : w1 ≤ 2 ^ 48) (hw2 : w2 ≤ 2 ^ 48)
    (hfit : ∀ p ∈ ss, p.1 + p.2.length < 2 ^ 53 ∧ ∀ f ∈ p.2, Fits 0 w1 w2 f) (hdata : data = dataOf 0 w1 w2 ss ++ extra)
    (hnew : (off : Int) ∉ seen) (f : Nat) {p : Option Int} (hp : PrevIs d p) {seen' : List Int} {s' : LS}
    (hrun : loadXref cfg get rs (f + 1) off seen s = .ok (seen', s')) {n : Int} (hn : n ≠ m) (hl : ∃ x, lastFor (listedFields ss) n = some x) :
    ∃ x, s'.xref.get? n = some x ∧ x.typ = 0 := by
  obtain ⟨_, -, -, -, -, h1⟩ := C24_stream cfg get rs s hh hs hin hds hgs hget hdn hidx hW (by omega) hw1 hw2 hfit hdata hnew f hp
  obtain ⟨s2, -, h2, -, -⟩ := h1 _ _ hrun
  obtain ⟨x, hx⟩ := hl
  refine ⟨x, by rw [h2, if_neg hn, hx]; rfl, ?_⟩
  rw [lastFor] at hx
  obtain ⟨q, hq, rfl⟩ := Option.map_eq_some_iff.1 hx
  have hm := List.mem_of_find?_eq_some hq
  rw [List.mem_reverse, listedFields, List.mem_flatMap] at hm
  obtain ⟨a, ha, hm⟩ := hm
  obtain ⟨fd, h3, h4⟩ := numberedFields_mem _ _ hm
  have := ((hfit a ha).2 fd h3).1
  rw [h4]
  show (fd.typ : Int) = 0
  omega

/-- A file that is a cross reference stream without a type column, for object 5. -/
def noType (offset generation : UInt8) : Cfg :=
  ⟨b!"1 0 obj<</Type/XRef/Index[5 1]/W[0 1 1]>>stream\n" ++ [offset, generation] ++ b!"\nendstream", Concrete.ext, some false⟩

/-- **C60 fails**, for a whole file. -/
theorem C60_false : ¬ ∀ (ord : Order) (f fx : Nat) (o g : UInt8) (s2 : LS) (r : Option EncErr), load (noType o g) ord f fx [] LS.init = .ok (r, s2) → ∃ e, s2.xref.get? 5 = some e ∧ e.typ = 1 := by
  intro h
  obtain ⟨r, s1, s2, h1, h2⟩ : ∃ r s1 s2, load (noType 9 0) default 3 3 [] LS.init = .ok (r, s2) ∧ SectionsLoaded (noType 9 0) 3 3 LS.init s1 := loads_of (by decide +kernel)
  obtain ⟨e, h3, h4⟩ := h default 3 3 9 0 s2 r h1
  rw [load_entry_eval h1 (n := 5) (x := some ⟨9, 0, 0, true, false⟩) (by decide +kernel)] at h3
  cases h3
  exact absurd h4 (by decide)

end Pdf.Props
