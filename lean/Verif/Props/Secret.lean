import Verif.Spec.Secret
import Verif.Model.Concrete
import Verif.Props.Whole
import Verif.Props.CryptFilters
/-!
C76: encrypted documents.
-/

namespace Pdf.Props
open Pdf Pdf.Spec St

/-- The filter for a key. -/
def keyFilter : Option Bytes → CryptFilter
  | none => .none
  | some k => .rc4 k

theorem hide_decrypt (ext : Ext) (verbose : Option Bool) (key : Option Bytes) (n g : Int) (b : Bytes) :
    decrypt ext verbose (newDecryptor ext (keyFilter key) n g) b = .ok (hide ext.md5 rc4 key n g b) := by
  cases key with
  | none => rfl
  | some k => rw [keyFilter, (C37_object_keys ext k n g).1, hide, decrypt]

theorem hide_hide (md5 : Bytes → Bytes) (key : Option Bytes) (n g : Int) (b : Bytes) : hide md5 rc4 key n g (hide md5 rc4 key n g b) = b := by
  cases key with
  | none => rfl
  | some k => exact rc4_rc4 _ _

/-- Reading an object of an encrypted document. -/
theorem getObject_secret {env : Env} {c : Secrecy} {skip : Option Int} {o : IndObj} {es : List Err} {T R : Bytes}
    (h : ObjectText (Reading.secret env.ext.md5 rc4 env.ext.toCodecs c skip) o es T) {e : XrefEntry} (h1 : env.sh.stringFilter = keyFilter c.strings)
    (h2 : env.sh.streamFilter = keyFilter c.streams) (h3 : env.sh.fileFilter = keyFilter c.files) (hflag : e.isEncrypted = true ↔ NotXref o ∧ skip ≠ some o.number)
    (hgen : e.generation = o.generation) (hu : InUse env o.number e (T ++ R)) (f : Nat) (s : PS) :
    ∃ s', getObject env f o.number s = .ok (o, s') ∧ s'.log = s.log ++ es := by
  obtain ⟨a, ha, hr⟩ := h
  have hr : Secret env.ext.md5 rc4 env.ext.toCodecs c skip a o := hr
  have hw : withGeneration o e.generation = o := by rw [hgen]; rfl
  rw [← hw]
  cases hr with
  | plain hx hdec =>
    have hf : e.isEncrypted = false := by
      cases he : e.isEncrypted with
      | false => rfl
      | true =>
        obtain ⟨k1, k2⟩ := hflag.1 he
        rcases hx with hx | hx
        · exact absurd k1 hx
        · exact absurd hx k2
    exact getObject_plain ⟨a, ha, hdec⟩ (.inr hf) hu f s
  | @hidden m _ hx hs hdec =>
    have hf : e.isEncrypted = true := hflag.2 ⟨hx, hs⟩
    obtain ⟨e1, e2, e3⟩ := hdec.same
    have hg : e.generation = m.generation := hgen.trans e2.symm
    change ∃ s', getObject env f o.number s = _ ∧ _
    rw [← e1] at hu ⊢
    refine getObject_raw (mid := m) (g := hide env.ext.md5 rc4 c.strings m.number m.generation) ha hu ?_ rfl ?_ ?_ ?_ hdec f s
    · intro b
      rw [stringDec, hf, if_pos rfl, h1, hg]
      exact hide_decrypt _ _ _ _ _ _
    · rw [sealed, mapStr_comp (k := fun b => b) (hide_hide _ _ _ _), mapStr_id (fun _ => rfl)]
    · intro hn
      rw [sealed] at hn
      exact Option.map_eq_none_iff.1 hn
    · intro D v hD hv
      obtain ⟨p, hp, rfl⟩ := Option.map_eq_some_iff.1 hv
      refine ⟨p, ?_, hp⟩
      have hsf : streamFilterOf env e D = keyFilter (c.streamKey m.value) := by
        rw [streamFilterOf, hf, if_pos rfl, Secrecy.streamKey]
        have hm : Assoc.get? D b!"Type" = some (.name b!"EmbeddedFile") ↔ Assoc.get? (entriesOf m.value) b!"Type" = some (.name b!"EmbeddedFile") := by
          have hD : mapStr (hide env.ext.md5 rc4 c.strings m.number m.generation) m.value = .dict D := hD
          cases hv : m.value with
          | dict D' =>
            rw [hv] at hD
            simp only [mapStr] at hD
            injection hD with hD
            rw [← hD, mapStrD_get, entriesOf]
            cases Assoc.get? D' b!"Type" with
            | none => simp
            | some v => cases v <;> simp [mapStr]
          | _ => rw [hv] at hD; simp only [mapStr] at hD; cases hD
        by_cases hc : Assoc.get? D b!"Type" = some (.name b!"EmbeddedFile")
        · rw [if_pos hc, if_pos (hm.1 hc), h3]
        · rw [if_neg hc, if_neg (fun h => hc (hm.2 h)), h2]
      rw [hsf, hg]
      exact (hide_decrypt _ _ _ _ _ _).trans (congrArg Res.ok (hide_hide _ _ _ _ _))

/-! ### Which entries are marked -/

theorem updates_mem {rd : Reading} {stray : Option Int → Prop} : ∀ {us : List Update} {pos : Nat} {prev : Option Nat}, Updates rd stray pos prev us → ∀ u ∈ us, ∃ pos prev r, UpdateAt rd stray pos prev u r := by
  intro us
  induction us with
  | nil => intro _ _ h; cases h
  | cons v us ih =>
    intro pos prev h u hu
    cases h with
    | last h _ =>
      rw [List.mem_singleton] at hu
      subst hu
      exact ⟨_, _, _, h⟩
    | cons h _ h' =>
      rcases List.mem_cons.1 hu with rfl | hu
      · exact ⟨_, _, _, h⟩
      · exact ih h' u hu

theorem lastFor_mem {κ α : Type} [DecidableEq κ] {l : List (κ × α)} {k : κ} {x : α} (h : lastFor l k = some x) : (k, x) ∈ l := by
  rw [lastFor] at h
  obtain ⟨p, hp, rfl⟩ := Option.map_eq_some_iff.1 h
  have h1 := List.mem_reverse.1 (List.mem_of_find?_eq_some hp)
  have h2 : p.1 = k := by simpa using List.find?_some hp
  rw [← h2]; exact h1

theorem listed_encrypted {subs : List (Nat × List Line)} {p : Int × XrefEntry} (h : p ∈ listed subs) : p.2.isEncrypted = true := by
  obtain ⟨q, -, hp⟩ := List.mem_flatMap.1 h
  have : ∀ (ls : List Line) (a : Nat), p ∈ numbered a ls → p.2.isEncrypted = true := by
    intro ls
    induction ls with
    | nil => intro a h; cases h
    | cons l ls ih =>
      intro a h
      rcases List.mem_cons.1 h with rfl | h
      · rfl
      · exact ih _ h
  exact this _ _ hp

theorem listedFields_encrypted {subs : List (Nat × List Field)} {p : Int × XrefEntry} (h : p ∈ listedFields subs) : p.2.isEncrypted = true := by
  obtain ⟨q, -, hp⟩ := List.mem_flatMap.1 h
  have : ∀ (ls : List Field) (a : Nat), p ∈ numberedFields a ls → p.2.isEncrypted = true := by
    intro ls
    induction ls with
    | nil => intro a h; cases h
    | cons l ls ih =>
      intro a h
      rcases List.mem_cons.1 h with rfl | h
      · rfl
      · exact ih _ h
  exact this _ _ hp

/-- An entry is marked as encrypted unless it is that of a cross reference stream. -/
theorem sect_flag {cd : Codecs} {pos : Nat} {u : Update} (hu' : SectAt cd pos u) (ht : ∀ subs w0 w1 w2 here x, u.sect = .stream subs w0 w1 w2 here x → ¬ NotXref x.obj) {pos' : Nat} {n : Int} {x : XrefEntry}
    {q : Nat × Part} (h1 : lastFor u.sect.entries n = some x) (h2 : lastPlaced (placedParts pos' u.parts) n = some q) : x.isEncrypted = true ↔ NotXref q.2.obj := by
  have hw := lastPlaced_parts u.parts pos' n
  rw [h2] at hw
  have hmem : q.2 ∈ u.parts := List.mem_reverse.1 (List.mem_of_find?_eq_some hw.symm)
  have hnum : q.2.obj.number = n := by simpa using List.find?_some hw.symm
  cases hu' with
  | table he hn _ _ _ _ =>
    rw [he] at h1
    exact ⟨fun _ => hn _ hmem, fun _ => listed_encrypted (lastFor_mem h1)⟩
  | @stream subs w0 w1 w2 y ps D more extra he hps hn _ _ _ _ _ _ _ _ _ _ _ =>
    have hy := ht _ _ _ _ _ _ he
    rw [he, Sect.entries, lastFor_append] at h1
    by_cases hk : n = y.obj.number
    · subst hk
      have e1 : ∀ z : XrefEntry, lastFor [(y.obj.number, z)] y.obj.number = some z := by intro z; simp [lastFor]
      rw [e1] at h1
      cases h1
      have : q.2 = y := by
        have hw : some q.2 = lastWith u.parts y.obj.number := hw
        rw [hps, lastWith, List.reverse_append] at hw
        simp at hw
        exact hw
      rw [this]
      exact ⟨(fun h => by cases h), fun h => absurd h hy⟩
    · have e1 : ∀ z : XrefEntry, lastFor [(y.obj.number, z)] n = none := by intro z; simp [lastFor, Ne.symm hk]
      rw [e1, Option.none_or] at h1
      refine ⟨fun _ => ?_, fun _ => listedFields_encrypted (lastFor_mem h1)⟩
      rw [hps] at hmem
      rcases List.mem_append.1 hmem with hm | hm
      · exact hn _ hm
      · rw [List.mem_singleton] at hm
        rw [hm] at hnum
        exact absurd hnum.symm hk

/-- An object that its section does not list is not a cross reference stream. -/
theorem sect_unlisted {cd : Codecs} {pos : Nat} {u : Update} (h : SectAt cd pos u) {p : Part} (hp : p ∈ u.parts) (hn : lastFor u.sect.entries p.obj.number = none) : NotXref p.obj := by
  cases h with
  | table _ h _ _ _ _ => exact h p hp
  | stream he hps h _ _ _ _ _ _ _ _ _ _ _ =>
    rw [hps] at hp
    rcases List.mem_append.1 hp with hp | hp
    · exact h p hp
    · rw [List.mem_singleton] at hp
      subst hp
      rw [he, Sect.entries, lastFor_append] at hn
      simp [lastFor] at hn

/-- An entry for a number that no object of the section has is marked as encrypted. -/
theorem sect_other {cd : Codecs} {pos : Nat} {u : Update} (h : SectAt cd pos u) {n : Int} {x : XrefEntry} (h1 : lastFor u.sect.entries n = some x) (hn : ∀ p ∈ u.parts, p.obj.number ≠ n) : x.isEncrypted = true := by
  cases h with
  | table he _ _ _ _ _ =>
    rw [he] at h1
    exact listed_encrypted (lastFor_mem h1)
  | @stream subs w0 w1 w2 y ps D more extra he hps h _ _ _ _ _ _ _ _ _ _ _ =>
    have hy : y.obj.number ≠ n := hn y (by rw [hps]; simp)
    rw [he, Sect.entries, lastFor_append] at h1
    have e1 : ∀ z : XrefEntry, lastFor [(y.obj.number, z)] n = none := by intro z; simp [lastFor, hy]
    rw [e1, Option.none_or] at h1
    exact listedFields_encrypted (lastFor_mem h1)

theorem lastPlaced_other {pos : Nat} {ps : List Part} {n : Int} (h : lastPlaced (placedParts pos ps) n = none) : ∀ p ∈ ps, p.obj.number ≠ n := by
  intro p hp hn
  have hw := lastPlaced_parts ps pos n
  rw [h] at hw
  have := List.find?_eq_none.1 hw.symm p (List.mem_reverse.2 hp)
  simp [hn] at this

theorem entry_flag {rd : Reading} {stray : Option Int → Prop} {us : List Update} {pos : Nat} {prev : Option Nat} (hU : Updates rd stray pos prev us) (ht : Typed us) {g : Group} (hg : GroupOf us g) {n : Int} {x : XrefEntry}
    {q : Nat × Part} (h1 : lastFor g.2.entries n = some x) (h2 : lastPlaced g.1 n = some q) : x.isEncrypted = true ↔ NotXref q.2.obj := by
  cases hg with
  | @update u pos' hu =>
    obtain ⟨_, _, _, hu'⟩ := updates_mem hU u hu
    exact sect_flag hu'.sect (ht.streams u hu) h1 h2
  | @linear u v rest pos' e hl =>
    have hu : u ∈ us := by rw [e]; simp
    have hv : v ∈ us := by rw [e]; simp
    obtain ⟨_, _, _, hu'⟩ := updates_mem hU u hu
    obtain ⟨_, _, _, hv'⟩ := updates_mem hU v hv
    have h1 : lastFor (v.sect.entries ++ u.sect.entries) n = some x := h1
    have h2 : lastPlaced (placed pos' [u, v]) n = some q := h2
    rw [lastFor_append] at h1
    rw [placed, placed, placed, List.append_nil, lastPlaced_append] at h2
    cases hx : lastFor u.sect.entries n with
    | some x' =>
      rw [hx] at h1
      cases h1
      have hnone : lastPlaced (placedParts (pos' + u.text.length) v.parts) n = none := by
        cases hq : lastPlaced (placedParts (pos' + u.text.length) v.parts) n with
        | none => rfl
        | some q' =>
          have hw := lastPlaced_parts v.parts (pos' + u.text.length) n
          rw [hq] at hw
          have hmem : q'.2 ∈ v.parts := List.mem_reverse.1 (List.mem_of_find?_eq_some hw.symm)
          have hnum : q'.2.obj.number = n := by simpa using List.find?_some hw.symm
          exact absurd hnum.symm (ht.apart hl u v rest e q'.2 hmem (n, x) (lastFor_mem hx))
      rw [hnone, Option.none_or] at h2
      exact sect_flag hu'.sect (ht.streams u hu) hx h2
    | none =>
      rw [hx, Option.none_or] at h1
      cases hq : lastPlaced (placedParts (pos' + u.text.length) v.parts) n with
      | some q' =>
        rw [hq] at h2
        cases h2
        exact sect_flag hv'.sect (ht.streams v hv) h1 hq
      | none =>
        rw [hq, Option.none_or] at h2
        have hw := lastPlaced_parts u.parts pos' n
        rw [h2] at hw
        have hmem : q.2 ∈ u.parts := List.mem_reverse.1 (List.mem_of_find?_eq_some hw.symm)
        have hnum : q.2.obj.number = n := by simpa using List.find?_some hw.symm
        exact ⟨fun _ => sect_unlisted hu'.sect hmem (by rw [hnum]; exact hx), fun _ => sect_other hv'.sect h1 (lastPlaced_other hq)⟩

/-- The table of an encrypted document. -/
structure Keyed (rd : Reading) (P : Bytes) (us : List Update) (skip : Option Int) (xref : Assoc Int XrefEntry) : Prop where
  some_ : ∀ n p, meant us n = some p → p.obj.number = n ∧ ∃ e T R, xref.get? n = some e ∧ e.typ = 1 ∧ 0 ≤ e.offset ∧ (docText P us).drop e.offset.toNat = T ++ R ∧
    ObjectText rd p.obj p.notes T ∧ e.generation = p.obj.generation ∧ (e.isEncrypted = true ↔ NotXref p.obj ∧ skip ≠ some n)
  none_ : ∀ n, meant us n = none → ∀ e, xref.get? n = some e → e.typ ≠ 1

theorem Mended.keyed {rd : Reading} {P : Bytes} {us : List Update} (hd : Document rd P us) (hr : RightTables (docText P us) P.length us) (ht : Typed us) {xref xref' : Assoc Int XrefEntry} (hM : Mended P us xref) {skip : Option Int}
    (hx : ∀ n, xref'.get? n = (xref.get? n).map fun e => if skip = some n then { e with isEncrypted := false } else e) : Keyed rd P us skip xref' := by
  constructor
  · intro n p hp
    rcases meant_cases hr n with ⟨-, -, k⟩ | ⟨x, -, -, k⟩ | ⟨x, q, k1, k2, k3, k4, k5, k6, g, hg, k7, k8⟩
    · rw [hp] at k; cases k
    · rw [hp] at k; cases k
    · rw [hp] at k4
      cases k4
      obtain ⟨hn, pre, gs, T, R, -, -, -, -, j1, j2⟩ := document_place hd k3
      obtain ⟨off, k5, k5'⟩ := k5
      obtain ⟨e, i1, i2, i3, i4, i5⟩ := hM.listed n q x off k3 k1 k5 k5'
      have hfl := entry_flag hd.updates ht hg k7 k8
      refine ⟨hn, _, T, R, by rw [hx, i1]; rfl, ?_⟩
      dsimp only
      by_cases hsk : skip = some n
      · rw [if_pos hsk]
        refine ⟨i4.trans k2, by dsimp only; rw [i2]; exact Int.natCast_nonneg _, by dsimp only; rw [i2]; exact j1, j2, i3.trans k6, ?_⟩
        exact ⟨(fun h => by cases h), fun h => absurd hsk h.2⟩
      · rw [if_neg hsk]
        refine ⟨i4.trans k2, by rw [i2]; exact Int.natCast_nonneg _, by rw [i2]; exact j1, j2, i3.trans k6, ?_⟩
        rw [i5, hfl]
        exact ⟨fun h => ⟨h, hsk⟩, fun h => h.1⟩
  · intro n hn e he ht1
    have := hM.inUse hr n
    rw [hn] at this
    rw [hx] at he
    obtain ⟨e', h1, rfl⟩ := Option.map_eq_some_iff.1 he
    have ht' : e'.typ = 1 := by
      split at ht1
      · exact ht1
      · exact ht1
    exact absurd (this.1 ⟨e', h1, ht'⟩) (by simp)

/-- What marking the encryption dictionary does. -/
theorem encrypt_marked {us : List Update} {enc : Dict} {skip : Option Int} (h : EncryptAt us enc skip) {s : LS} (htr : ∀ k v, trailerFor us k = some v → s.trailer.get? k = some v) :
    ∃ v s', s.trailer.get? b!"Encrypt" = some v ∧ markEncrypt v s = .ok ((), s') ∧ s'.trailer = s.trailer ∧ s'.sh = s.sh ∧
      ∀ n, s'.xref.get? n = (s.xref.get? n).map fun e => if skip = some n then { e with isEncrypted := false } else e := by
  cases h with
  | direct h =>
    refine ⟨_, s, htr _ _ h, rfl, rfl, rfl, fun n => ?_⟩
    simp
  | @indirect m g p h _ _ =>
    refine ⟨.ref m g, ?_⟩
    cases hm : s.xref.get? m with
    | none =>
      refine ⟨s, htr _ _ h, by rw [markEncrypt]; simp only [hm], rfl, rfl, fun n => ?_⟩
      by_cases hn : n = m
      · subst hn; rw [hm]; rfl
      · simp [Ne.symm hn]
    | some e =>
      refine ⟨{ s with xref := s.xref.set m { e with isEncrypted := false } }, htr _ _ h, by rw [markEncrypt]; simp only [hm], rfl, rfl, fun n => ?_⟩
      show Assoc.get? (Assoc.set _ _ _) n = _
      rw [Assoc.get?_set]
      by_cases hn : n = m
      · subst hn; rw [hm]; simp
      · simp [hn, Ne.symm hn]

/-! ### The handler -/

/-- Reading an object that is not encrypted, whatever the handler. -/
theorem getObject_open {rd : Reading} {skip : Option Int} (ho : rd.Open skip) {P : Bytes} {us : List Update} {xref : Assoc Int XrefEntry} (hK : Keyed rd P us skip xref)
    {m : Int} {p : Part} (hm : meant us m = some p) (hs : skip = some m) {env : Env} (h1 : env.file = docText P us) (h2 : env.xref = xref) (h3 : rd.cd = env.ext.toCodecs) (f : Nat) (s : PS) :
    ∃ s', getObject env f m s = .ok (p.obj, s') := by
  obtain ⟨hn, e, T, R, k1, k2, k3, k4, ⟨a, ha, hr⟩, k6, k7⟩ := hK.some_ m p hm
  subst hn
  have hfl : e.isEncrypted = false := by
    cases he : e.isEncrypted with
    | false => rfl
    | true => exact absurd hs (k7.1 he).2
  have hdec : Decoded env.ext.toCodecs a p.obj := by
    rw [← h3]
    exact ho _ _ hs hr
  obtain ⟨s', g, -⟩ := getObject_plain (env := env) ⟨a, ha, hdec⟩ (.inr hfl) ⟨by rw [h2]; exact k1, k2, k3, by rw [h1]; exact k4⟩ f s
  refine ⟨s', g.trans ?_⟩
  rw [k6]; rfl

theorem secret_open (md5 : Bytes → Bytes) (cd : Codecs) (c : Secrecy) (skip : Option Int) : (Reading.secret md5 rc4 cd c skip).Open skip := by
  intro a o hs hr
  have hr : Secret md5 rc4 cd c skip a o := hr
  cases hr with
  | plain _ h => exact h
  | hidden _ h _ => exact absurd hs h

/-- The encryption dictionary is found. -/
theorem encrypt_found {rd : Reading} {skip : Option Int} (ho : rd.Open skip) {P : Bytes} {us : List Update} {xref : Assoc Int XrefEntry} (hK : Keyed rd P us skip xref)
    {enc : Dict} (he : EncryptAt us enc skip) {trailer : Dict} (htr : ∀ k v, trailerFor us k = some v → trailer.get? k = some v) {env : Env}
    (h1 : env.file = docText P us) (h2 : env.xref = xref) (h3 : rd.cd = env.ext.toCodecs) (f : Nat) (sh : SecHandler) (s : PS) :
    ∃ s', Dict.getDict (resolver { env with sh := sh } (f + 1)) trailer b!"Encrypt" s = .ok (some enc, s') := by
  cases he with
  | direct h => exact ⟨s, Dict.getDict_direct s (htr _ _ h) (by rintro n g ⟨⟩)⟩
  | @indirect m g p h hm hv =>
    obtain ⟨s', hg⟩ := getObject_open ho hK hm rfl (env := { env with sh := sh }) h1 h2 h3 f s
    have hr : resolve { env with sh := sh } (f + 1) [] m s = .ok (p.obj, s') := by
      rw [resolve, if_neg (by simp)]
      refine (bind_of_ok hg).trans ?_
      rw [hv]; rfl
    refine ⟨seek s' (currentOffset s), ?_⟩
    rw [Dict.getDict, Dict.getObject_ref (htr _ _ h)]
    have hr2 : resolver { env with sh := sh } (f + 1) m s = .ok (p.obj, seek s' (currentOffset s)) := by
      rw [resolver, keepOffset, hr]; rfl
    refine (bind_of_ok (bind_of_ok hr2)).trans ?_
    rw [hv]; rfl

theorem intEntry {d : Dict} {k : Bytes} {n : Int} (h : IntEntry d k n) (rs : Resolver) (s : PS) : Dict.getInt rs d k s = .ok (some n, s) := by
  obtain ⟨x, h1, rfl⟩ := h
  exact Dict.getInt_direct s h1 (by rintro n g ⟨⟩)

theorem stdEntries_describe {us : List Update} {enc : Dict} {d : StdDict} (hs : StdEntries us enc d) {trailer : Dict} (htr : ∀ k v, trailerFor us k = some v → trailer.get? k = some v)
    {rs : SecHandler → Resolver} (he : ∀ sh s, ∃ s', Dict.getDict (rs sh) trailer b!"Encrypt" s = .ok (some enc, s')) : Describes rs trailer enc d where
  encrypt := he
  filter := fun _ s => ⟨s, Dict.getName_direct s hs.filter (by rintro n g ⟨⟩)⟩
  v := fun _ s => ⟨s, intEntry hs.v _ _⟩
  r := fun _ s => ⟨s, intEntry hs.r _ _⟩
  v_ok := hs.v_ok
  r_ok := hs.r_ok
  length := by
    rcases hs.length with ⟨h1, h2⟩ | ⟨bits, h1, h2⟩
    · refine ⟨none, fun _ s => ⟨s, Dict.getInt_none s h1⟩, ?_⟩
      rw [h2]
      by_cases hv : d.v = 1
      · rw [if_pos hv]; rfl
      · rw [if_neg hv]; rfl
    · exact ⟨some bits, fun _ s => ⟨s, intEntry h1 _ _⟩, h2⟩
  o := fun _ s => ⟨s, Dict.getString_direct s hs.o (by rintro n g ⟨⟩)⟩
  u := fun _ s => ⟨s, Dict.getString_direct s hs.u (by rintro n g ⟨⟩)⟩
  p := fun _ s => ⟨s, intEntry hs.p _ _⟩
  em := by
    rcases hs.em with ⟨h1, h2⟩ | h1
    · exact ⟨none, fun _ s => ⟨s, Dict.getBool_none s h1⟩, h2⟩
    · refine ⟨some d.encryptMetadata, fun _ s => ⟨s, (Dict.getBool_direct s h1 (by rintro n g ⟨⟩)).trans ?_⟩, rfl⟩
      cases d.encryptMetadata <;> rfl
  id := by
    obtain ⟨more, h⟩ := hs.id
    exact ⟨_, fun _ s => ⟨s, Dict.getArray_direct s (htr _ _ h) (by rintro n g ⟨⟩)⟩, fun _ s => ⟨s, Arr.getString_direct s (o := .str d.id) rfl (by rintro n g ⟨⟩)⟩⟩

/-- The filters of /CF are loaded. -/
theorem loadCryptFilters_runs {ext : Ext} (rs : SecHandler → Resolver) {password : Bytes} {d : StdDict} : ∀ (cf : List (Bytes × Obj)) (sh : SecHandler), d.n ≤ 16 → (∀ x ∈ cf, CFEntry x.2) →
    (sh.o = d.o ∧ sh.p = lowBytes 4 d.p ∧ sh.id = d.id ∧ sh.r = d.r ∧ sh.encryptMetadata = d.encryptMetadata ∧ sh.length = d.n) → ∀ s, ∃ sh', loadCryptFilters ext rs password cf sh s = .ok (sh', s)
  | [], sh, _, _, _, s => ⟨sh, rfl⟩
  | (k, o) :: t, sh, hn, hcf, hsh, s => by
    obtain ⟨cfd, m, rfl, h1, h2⟩ := hcf (k, o) (by simp)
    obtain ⟨l, n, h3, h4, h5⟩ : ∃ (l : Option Int) (n : Nat), Dict.getInt (rs sh) cfd b!"Length" s = .ok (l, s) ∧ (n : Int) = l.getD d.n ∧ n ≤ 16 := by
      rcases h2 with h2 | ⟨n, hn16, h2⟩
      · exact ⟨none, d.n, Dict.getInt_none s h2, rfl, hn⟩
      · exact ⟨some n, n, intEntry h2 _ _, rfl, hn16⟩
    have hkey := computeKey_ok ext sh { d with n := n } password h5 hsh.1 hsh.2.1 hsh.2.2.1 hsh.2.2.2.1 hsh.2.2.2.2.1
    have hone : ∃ sh', loadCryptFilter ext (rs sh) password sh k (.dict cfd) s = .ok (sh', s) := by
      rw [loadCryptFilter, bind_of_ok (Dict.getName_direct s h1 (by rintro n g ⟨⟩))]
      show ∃ sh', (Dict.getInt (rs sh) cfd b!"Length" >>= _) s = _
      rw [bind_of_ok h3, hsh.2.2.2.2.2, ← h4, show computeKey ext sh password (n : Int) = _ from hkey]
      split
      · exact ⟨_, rfl⟩
      · split
        · exact ⟨_, rfl⟩
        · split
          · exact ⟨_, rfl⟩
          · exact ⟨_, rfl⟩
    obtain ⟨sh1, h6⟩ := hone
    obtain ⟨g, -⟩ := loadCryptFilter_ret ext (rs sh) password sh k (.dict cfd) s sh1 s h6
    rw [loadCryptFilters, bind_of_ok h6]
    exact loadCryptFilters_runs rs t sh1 hn (fun x hx => hcf x (by simp [hx]))
      ⟨g.1.trans hsh.1, g.2.1.trans hsh.2.1, g.2.2.1.trans hsh.2.2.1, g.2.2.2.1.trans hsh.2.2.2.1, g.2.2.2.2.1.trans hsh.2.2.2.2.1, g.2.2.2.2.2.1.trans hsh.2.2.2.2.2⟩ s

/-- `SetPassword` accepts the user password and sets the filters. -/
theorem setPassword_keys (cfg : Cfg) {rs : Env → Resolver} {ord : Order} {ls : LS} {enc : Dict} {d : StdDict} (h : Describes (fun sh => rs { ls.env cfg with sh := sh }) ls.trailer enc d)
    (hu : 3 ≤ d.r → 16 ≤ d.u.length) (hn : d.n ≤ 16) {password : Bytes} (hp : UserPassword cfg.ext.md5 rc4 d password) {c : Secrecy} (hk : Keys cfg.ext.md5 enc d password c) :
    ∃ ls', setPassword cfg rs ord password ls = .ok (none, ls') ∧ ls'.sh.stringFilter = keyFilter c.strings ∧ ls'.sh.streamFilter = keyFilter c.streams ∧ ls'.sh.fileFilter = keyFilter c.files := by
  cases hk with
  | all h4 =>
    obtain ⟨ls', g1, -, g2, g3, g4⟩ := (C38_accepts (ord := ord) cfg h hu hp).2 h4
    exact ⟨ls', g1, g3, g2, g4⟩
  | @named cf stm str k1 k2 h4 hcf hnd hent hstm hstr heef hk1 hk2 =>
    have hul : 16 ≤ d.u.length := hu (by omega)
    have gcf : ∀ rs s, Dict.getDict rs enc b!"CF" s = .ok (some cf, s) := fun rs s => Dict.getDict_direct s hcf (by rintro n g ⟨⟩)
    have gstm : ∀ rs s, Dict.getName rs enc b!"StmF" s = .ok (some stm, s) := fun rs s => Dict.getName_direct s hstm (by rintro n g ⟨⟩)
    have gstr : ∀ rs s, Dict.getName rs enc b!"StrF" s = .ok (some str, s) := fun rs s => Dict.getName_direct s hstr (by rintro n g ⟨⟩)
    have geef : ∀ rs s, Dict.getName rs enc b!"EEF" s = .ok (none, s) := fun rs s => Dict.getName_none s heef
    have hret : ∃ ls', setPassword cfg rs ord password ls = .ok (none, ls') := by
      obtain ⟨s', hs⟩ := secInit_run (ord := ord) (ext := cfg.ext) h password ls.sh ls.ps
      obtain ⟨b, hb, hiff⟩ := verifyKey_ok cfg.ext d password (shAfter cfg.ext d password ls.sh) h.r_ok.1 (fun _ => hul) rfl rfl rfl rfl
      rw [hb, hiff.2 hp, bind_of_ok (x := St.ofRes (.ok _)) rfl, if_neg (by decide)] at hs
      rw [setPassword, hs]
      have : ∃ sh', setFilters cfg.ext (fun sh => rs { ls.env cfg with sh := sh }) ord password enc (shAfter cfg.ext d password ls.sh) s' = .ok (sh', s') := by
        rw [setFilters]
        dsimp only
        rw [if_pos (show (shAfter cfg.ext d password ls.sh).r = 4 from h4), bind_of_ok (gcf _ _)]
        obtain ⟨sh1, g1⟩ := loadCryptFilters_runs (ext := cfg.ext) (fun sh => rs { ls.env cfg with sh := sh }) (password := password) (d := d) (ord.visit cf)
          { shAfter cfg.ext d password ls.sh with streamFilter := .rc4 (shAfter cfg.ext d password ls.sh).key, stringFilter := .rc4 (shAfter cfg.ext d password ls.sh).key, fileFilter := .rc4 (shAfter cfg.ext d password ls.sh).key, cryptFilters := [(b!"Identity", .none)] } hn (fun x hx => hent x ((visited ord _).mem_iff.1 hx)) ⟨rfl, rfl, rfl, rfl, rfl, rfl⟩ s'
        show ∃ sh', (loadCryptFilters _ _ _ (ord.visit cf) _ >>= _) s' = _
        rw [bind_of_ok g1]
        have nf : ∀ {rs k o} sh df, (∀ s, Dict.getName rs enc k s = .ok (o, s)) → ∃ x, namedFilter rs enc sh k df s' = .ok (x, s') := by
          intro rs k o sh df h
          rw [namedFilter, bind_of_ok (h s')]
          cases o <;> exact ⟨_, rfl⟩
        obtain ⟨x1, e1⟩ := nf sh1 sh1.streamFilter (gstm (rs { ls.env cfg with sh := sh1 }))
        rw [bind_of_ok e1]
        obtain ⟨x2, e2⟩ := nf { sh1 with streamFilter := x1 } sh1.stringFilter (gstr (rs { ls.env cfg with sh := { sh1 with streamFilter := x1 } }))
        rw [bind_of_ok e2]
        obtain ⟨x3, e3⟩ := nf { sh1 with streamFilter := x1, stringFilter := x2 } sh1.fileFilter (geef (rs { ls.env cfg with sh := { sh1 with streamFilter := x1, stringFilter := x2 } }))
        rw [bind_of_ok e3]
        exact ⟨_, rfl⟩
      obtain ⟨sh', hsh⟩ := this
      rw [bind_of_ok hsh]
      exact ⟨_, rfl⟩
    obtain ⟨ls', hret⟩ := hret
    obtain ⟨g1, g2, g3, g4, g5⟩ := C42_named_partial cfg h h4 hul (fun _ s => ⟨s, gstm _ s⟩) (fun _ s => ⟨s, gstr _ s⟩) (fun _ s => ⟨s, geef _ s⟩) (fun _ s => ⟨s, gcf _ s⟩) hnd hp hret
    have key : ∀ {name k}, NamedKey cfg.ext.md5 d password cf name k → ls'.sh.cryptFilters.get? name = some (keyFilter k) := by
      intro name k hk
      cases hk with
      | identity h1 h2 =>
        subst h1
        exact g5 (Assoc.get?_none_iff.1 h2)
      | @nothing cfd h1 h2 =>
        obtain ⟨cfd', m, e1, -, e2⟩ := hent (name, .dict cfd) (Assoc.mem_of_get? h1)
        cases e1
        rcases e2 with e2 | ⟨n, hn16, e2⟩
        · exact g4 name cfd b!"None" none d.n .none (Assoc.mem_of_get? h1) (fun _ s => ⟨s, Dict.getName_direct s h2 (by rintro n g ⟨⟩)⟩) (fun _ s => ⟨s, Dict.getInt_none s e2⟩) rfl hn rfl
        · exact g4 name cfd b!"None" (some n) n .none (Assoc.mem_of_get? h1) (fun _ s => ⟨s, Dict.getName_direct s h2 (by rintro n g ⟨⟩)⟩) (fun _ s => ⟨s, intEntry e2 _ _⟩) rfl hn16 rfl
      | @rc4 cfd n h1 h2 h3 hn16 =>
        rcases h3 with ⟨e2, rfl⟩ | e2
        · exact g4 name cfd b!"V2" none d.n _ (Assoc.mem_of_get? h1) (fun _ s => ⟨s, Dict.getName_direct s h2 (by rintro n g ⟨⟩)⟩) (fun _ s => ⟨s, Dict.getInt_none s e2⟩) rfl hn rfl
        · exact g4 name cfd b!"V2" (some n) n _ (Assoc.mem_of_get? h1) (fun _ s => ⟨s, Dict.getName_direct s h2 (by rintro n g ⟨⟩)⟩) (fun _ s => ⟨s, intEntry e2 _ _⟩) rfl hn16 rfl
    refine ⟨ls', hret, ?_, ?_, g3⟩
    · rw [g2, selected, key hk1]; rfl
    · rw [g1, selected, key hk2]; rfl

/-! ### The document -/

variable {P : Bytes} {us : List Update} {ext : Ext} {c : Secrecy} {skip : Option Int} {enc : Dict} {d : StdDict} {pw : Bytes}

theorem StdEntries.short (hs : StdEntries us enc d) : d.n ≤ 16 := by
  rcases hs.length with ⟨-, h⟩ | ⟨bits, -, h⟩
  · omega
  · split at h <;> omega

/-- What loading a document with an encryption dictionary does before that dictionary is looked at. -/
theorem crypt_start {rd : Reading} (hcd : rd.cd = ext.toCodecs) (ho : rd.Open skip) (hd : Document rd P us) (hr : RightTables (docText P us) P.length us) (ht : Typed us) (he : EncryptAt us enc skip)
    (verbose : Option Bool) (ord : Order) :
    ∃ s, (∀ pw, load ⟨docText P us, ext, verbose⟩ ord 1 us.length pw LS.init = setPassword ⟨docText P us, ext, verbose⟩ (fun env => resolver env 1) ord.next pw s) ∧
      Keyed rd P us skip s.xref ∧ (∀ k v, trailerFor us k = some v → s.trailer.get? k = some v) ∧
      ∀ sh t, ∃ t', Dict.getDict (resolver { s.env ⟨docText P us, ext, verbose⟩ with sh := sh } 1) s.trailer b!"Encrypt" t = .ok (some enc, t') := by
  obtain ⟨s, h1, h2, htr, -⟩ := document_mended (cfg := ⟨docText P us, ext, verbose⟩) hcd hd rfl ord 0 us.length (Nat.le_refl _) PS.init
  obtain ⟨v, s', k1, k2, k3, k4, k5⟩ := encrypt_marked he htr
  have hK := h2.keyed hd hr ht k5
  refine ⟨s', fun pw => ?_, hK, by rw [k3]; exact htr, fun sh t => encrypt_found ho hK he (by rw [k3]; exact htr) rfl rfl hcd 0 sh t⟩
  have := h1 pw
  rw [k1] at this
  refine this.trans ?_
  show (markEncrypt v s >>= _) = _
  rw [k2]; rfl

/-- What loading an encrypted document does before the password is looked at. -/
theorem secret_start (hd : Document (Reading.secret ext.md5 rc4 ext.toCodecs c skip) P us) (hr : RightTables (docText P us) P.length us) (ht : Typed us) (he : EncryptAt us enc skip) (hs : StdEntries us enc d)
    (verbose : Option Bool) (ord : Order) :
    ∃ s, (∀ pw, load ⟨docText P us, ext, verbose⟩ ord 1 us.length pw LS.init = setPassword ⟨docText P us, ext, verbose⟩ (fun env => resolver env 1) ord.next pw s) ∧
      Keyed (Reading.secret ext.md5 rc4 ext.toCodecs c skip) P us skip s.xref ∧
      Describes (fun sh => resolver { s.env ⟨docText P us, ext, verbose⟩ with sh := sh } 1) s.trailer enc d := by
  obtain ⟨s, h1, h2, h3, h4⟩ := crypt_start (ext := ext) rfl (secret_open _ _ _ _) hd hr ht he verbose ord
  exact ⟨s, h1, h2, stdEntries_describe hs h3 h4⟩

/-- After the user password the objects are those that are meant. -/
theorem secret_loaded (hd : Document (Reading.secret ext.md5 rc4 ext.toCodecs c skip) P us) (hr : RightTables (docText P us) P.length us) (ht : Typed us) (he : EncryptAt us enc skip) (hs : StdEntries us enc d)
    (hp : UserPassword ext.md5 rc4 d pw) (hk : Keys ext.md5 enc d pw c) (verbose : Option Bool) (ord : Order) :
    ∃ ls, (∀ f fx, 1 ≤ f → us.length ≤ fx → load ⟨docText P us, ext, verbose⟩ ord f fx pw LS.init = .ok (none, ls)) ∧ Loaded us (ls.env ⟨docText P us, ext, verbose⟩) := by
  obtain ⟨s, h1, hK, hD⟩ := secret_start hd hr ht he hs verbose ord
  obtain ⟨ls, g1, g2, g3, g4⟩ := setPassword_keys (ord := ord.next) ⟨docText P us, ext, verbose⟩ (rs := fun env => resolver env 1) hD hs.u_long (StdEntries.short hs) hp hk
  have hx : ls.xref = s.xref := (C39_unchanged _ _ _ _ _ _ g1).2.2
  rw [← hx] at hK
  have hl : load ⟨docText P us, ext, verbose⟩ ord 1 us.length pw LS.init = .ok (none, ls) := (h1 pw).trans g1
  have hget : ∀ n p, meant us n = some p → ∀ s, ∃ t, getObject (ls.env ⟨docText P us, ext, verbose⟩) 0 n s = .ok (p.obj, t) := by
    intro n p hm s
    obtain ⟨hn, e, T, R, k1, k2, k3, k4, k5, k6, k7⟩ := hK.some_ n p hm
    subst hn
    obtain ⟨t, ht, -⟩ := getObject_secret (env := ls.env ⟨docText P us, ext, verbose⟩) k5 g2 g3 g4 k7 k6 ⟨k1, k2, k3, k4⟩ 0 s
    exact ⟨t, ht⟩
  refine ⟨ls, fun f fx a b => ?_, ⟨fun n p hm s => ?_, fun n hm f s => ?_, fun n => ⟨?_, fun h => ?_⟩, load_keys hl⟩⟩
  · rcases load_le ⟨docText P us, ext, verbose⟩ ord (f := 1) (f' := f) a b pw LS.init with h | h
    · rw [hl] at h; cases h
    · rw [← h, hl]
  · obtain ⟨t, ht⟩ := hget n p hm s
    refine ⟨t, fun f => ?_⟩
    rcases getObject_le (ls.env ⟨docText P us, ext, verbose⟩) (Nat.zero_le f) n s with h | h
    · rw [ht] at h; cases h
    · rw [← h, ht]
  · exact C16_null _ f n (hK.none_ n hm) s
  · rintro ⟨e, h1, h2⟩
    cases hm : meant us n with
    | none => exact absurd h2 (hK.none_ n hm e h1)
    | some p => rfl
  · obtain ⟨p, hm⟩ := Option.isSome_iff_exists.1 h
    obtain ⟨-, e, -, -, k1, k2, -⟩ := hK.some_ n p hm
    exact ⟨e, k1, k2⟩

/-- **C76, partial** An encrypted document is read as it is meant with its user password: `Load` returns without an error, and
every object is the object that the document means, with its strings and its stream decrypted. Missing: AES (`C36_false`); encrypted
files with a key of their own (`C42_EFF_false`); entries of the encryption dictionary and file identifiers by reference; and what is missing from
`C74_meant_partial`. -/
theorem C76_read_partial (hd : Document (Reading.secret ext.md5 rc4 ext.toCodecs c skip) P us) (hr : RightTables (docText P us) P.length us) (ht : Typed us) (he : EncryptAt us enc skip) (hs : StdEntries us enc d)
    (hp : UserPassword ext.md5 rc4 d pw) (hk : Keys ext.md5 enc d pw c) (verbose : Option Bool) (ord : Order) {f fx : Nat} (hf : 1 ≤ f) (hfx : us.length ≤ fx) :
    ∃ ls, load ⟨docText P us, ext, verbose⟩ ord f fx pw LS.init = .ok (none, ls) ∧
      (∀ n p, meant us n = some p → ∀ f s, ∃ s', getObject (ls.env ⟨docText P us, ext, verbose⟩) f n s = .ok (p.obj, s')) ∧
      (∀ n, meant us n = none → ∀ f s, getObject (ls.env ⟨docText P us, ext, verbose⟩) f n s = .ok (⟨n, 0, .null, none⟩, s)) := by
  obtain ⟨ls, h1, h2⟩ := secret_loaded hd hr ht he hs hp hk verbose ord
  refine ⟨ls, h1 f fx hf hfx, fun n p hm f s => ?_, h2.free⟩
  obtain ⟨t, ht⟩ := h2.gets n p hm s
  exact ⟨t, ht f⟩

/-- `Parse` when `Load` refuses. -/
theorem parse_refused {sys : Sys} {v : Bool} {file : Bytes} (hf : sys.input = some file) (hc : ∀ h, sys.canCreate h = true) {f0 fx0 f fx ft : Nat} {e : EncErr} {ls : LS}
    (hl : load ⟨file, ext, some v⟩ sys.order f0 fx0 pw LS.init = .ok (some e, ls)) (h1 : f0 ≤ f) (h2 : fx0 ≤ fx) :
    (parse sys ext (some v) f fx ft pw).outcome = .returned (some e) ∧ (parse sys ext (some v) f fx ft pw).out = {} := by
  have hl : load ⟨file, ext, some v⟩ sys.order f fx pw LS.init = .ok (some e, ls) := by
    rcases load_le ⟨file, ext, some v⟩ sys.order h1 h2 pw LS.init with h | h
    · rw [hl] at h; cases h
    · rw [← h, hl]
  have hok : (createAll sys outputFiles []).2.2 = true := by simp [outputFiles, createAll, hc]
  have hb : parseBody file sys.order ext (some v) f fx ft pw = .ok (some e, ⟨ls.ps, {}, sys.order.next.next⟩) := by
    rw [parseBody]
    show (load ⟨file, ext, some v⟩ sys.order f fx pw LS.init >>= _) = _
    rw [hl]; rfl
  rw [parse, hf]
  simp only [hok, if_true]
  rw [hb]
  exact ⟨rfl, rfl⟩

/-- **C76** With a password that is not the user password nothing is read: `Parse` returns the password error, and writes nothing. -/
theorem C76_wrong {sys : Sys} {v : Bool} (hf : sys.input = some (docText P us)) (hc : ∀ h, sys.canCreate h = true)
    (hd : Document (Reading.secret ext.md5 rc4 ext.toCodecs c skip) P us) (hr : RightTables (docText P us) P.length us) (ht : Typed us) (he : EncryptAt us enc skip) (hs : StdEntries us enc d)
    (hp : ¬ UserPassword ext.md5 rc4 d pw) {f fx ft : Nat} (h1 : 1 ≤ f) (hfx : us.length ≤ fx) :
    (parse sys ext (some v) f fx ft pw).outcome = .returned (some .passwordError) ∧ (parse sys ext (some v) f fx ft pw).out = {} := by
  obtain ⟨s, g1, hK, hD⟩ := secret_start hd hr ht he hs (some v) sys.order
  obtain ⟨ls, g2⟩ := C38_refuses (ord := sys.order.next) ⟨docText P us, ext, some v⟩ (rs := fun env => resolver env 1) hD hs.u_long hp
  exact parse_refused hf hc ((g1 pw).trans g2) h1 hfx

/-- **C76, partial** The report on an encrypted document, with its user password, is about what the document means, decrypted.
Missing: as for `C76_read_partial` and `C75_partial`. -/
theorem C76_report_partial {sys : Sys} {v : Bool} (hf : sys.input = some (docText P us)) (hc : ∀ h, sys.canCreate h = true)
    (hd : Document (Reading.secret ext.md5 rc4 ext.toCodecs c skip) P us) (hr : RightTables (docText P us) P.length us) (ht : Typed us) (he : EncryptAt us enc skip) (hs : StdEntries us enc d)
    (hp : UserPassword ext.md5 rc4 d pw) (hk : Keys ext.md5 enc d pw c) (hki : KidsEnd us) (hst : StreamsLoad us) :
    ∃ r F, (∀ f fx ft, F ≤ f → F ≤ fx → F ≤ ft → parse sys ext (some v) f fx ft pw = r) ∧ r.outcome = .returned none ∧
      (∀ view, Means us view → ∃ l ws, l.Nodup ∧ (∀ n, n ∈ l ↔ (meant us n).isSome) ∧ Holds r.out ws ∧
        Parts (fun n part => ∃ p, meant us n = some p ∧ ObjectReport ext view p.obj part) l (visible ws)) ∧
      ∀ view, Means us view → ∀ n p, meant us n = some p → ∀ d ∈ dictsOf p.obj,
        (∀ u, view.string d b!"URI" = some u → ∃ a b, r.out.urls = a ++ ((u ++ b!"\n") ++ b)) ∧
        (∀ j, view.string d b!"JS" = some j → ∃ a b, r.out.javascript = a ++ ((j ++ b!"\n") ++ b)) ∧
        (∀ m g j, d.get? b!"JS" = some (.ref m g) → view.stream m = some j → view.string d b!"JS" = none → ∃ a b, r.out.javascript = a ++ ((j ++ b!"\n") ++ b)) := by
  obtain ⟨ls, h1, h2⟩ := secret_loaded hd hr ht he hs hp hk (some v) sys.order
  obtain ⟨r, F, k1, k2, k3⟩ := loaded_report hf hc (F := max 1 us.length) (fun f fx a b => h1 f fx (by omega) (by omega)) h2 hki hst
  exact ⟨r, F, k1, k2, k3, report_found k3⟩


/-- Keys of revision 4: streams have a key of a named filter, strings are not encrypted. -/
example (md5 : Bytes → Bytes) (d : StdDict) (pw : Bytes) (h4 : d.r = 4) :
    Keys md5 [(b!"CF", .dict [(b!"StdCF", .dict [(b!"CFM", .name b!"V2"), (b!"Length", .num (intNum false 16))])]), (b!"StmF", .name b!"StdCF"), (b!"StrF", .name b!"Identity")] d pw
      ⟨none, some (stdKey md5 { d with n := 16 } pw), some (stdKey md5 d pw)⟩ := by
  refine .named h4 (by rfl) (by decide) ?_ (by rfl) (by rfl) (by rfl) (.identity rfl (by rfl)) (.rc4 (n := 16) (by rfl) (by rfl) (.inr ⟨_, by rfl, by decide⟩) (by decide))
  intro x hx
  cases List.mem_singleton.1 hx
  exact ⟨_, _, rfl, by rfl, .inr ⟨16, by decide, _, by rfl, by decide⟩⟩

/-! ### Documents that are refused -/

section
variable {rs : Resolver} {e : Dict} {k : Bytes} (h : InPlace e k) (s : PS)
include h
theorem direct_object : Dict.getObject rs e k = pure (e.get? k) := by
  cases hk : e.get? k with
  | none => exact Dict.getObject_none hk
  | some o => exact Dict.getObject_direct hk fun n g ho => h n g (by rw [hk, ho])
theorem direct_name : Dict.getName rs e k s = .ok ((e.get? k).bind Obj.asName?, s) := by rw [Dict.getName, direct_object h]; rfl
theorem direct_int : Dict.getInt rs e k s = .ok (((e.get? k).bind Obj.asNum?).map F64.toInt, s) := by rw [Dict.getInt, Dict.getNumber, direct_object h]; rfl
theorem direct_str : Dict.getString rs e k s = .ok ((e.get? k).bind Obj.asStr?, s) := by rw [Dict.getString, direct_object h]; rfl
theorem direct_bool : Dict.getBool rs e k s = .ok ((e.get? k).bind Obj.asBool?, s) := by rw [Dict.getBool, direct_object h]; rfl
end

theorem intEntry_iff {e : Dict} {k : Bytes} {n : Int} : IntEntry e k n ↔ ((e.get? k).bind Obj.asNum?).map F64.toInt = some n := by
  rw [IntEntry]
  cases hk : e.get? k with
  | none => simp
  | some o => cases o <;> simp [Obj.asNum?]

/-- `SetPassword` refuses what it does not support, whatever the password. -/
theorem setPassword_unsupported (cfg : Cfg) {rs : Env → Resolver} {ord : Order} {ls : LS} {enc : Dict} (h : ∀ sh t, ∃ t', Dict.getDict (rs { ls.env cfg with sh := sh }) ls.trailer b!"Encrypt" t = .ok (some enc, t'))
    (hu : Unsupported enc) (password : Bytes) : ∃ ls', setPassword cfg rs ord password ls = .ok (some .unsupported, ls') ∧ SameFilters ls'.sh ls.sh := by
  suffices hs : ∃ sh' t', secInit cfg.ext (fun sh => rs { ls.env cfg with sh := sh }) ord password ls.trailer ls.sh ls.ps = .ok ((some .unsupported, sh'), t') by
    obtain ⟨sh', t', hs⟩ := hs
    have hr : setPassword cfg rs ord password ls = .ok (some .unsupported, { ls with ps := t', sh := sh' }) := by rw [setPassword, hs]; rfl
    exact ⟨_, hr, (C39_unchanged _ _ _ _ _ _ hr).1 (by simp)⟩
  obtain ⟨t, ht⟩ := h ls.sh ls.ps
  rw [secInit, bind_of_ok ht]
  dsimp only
  cases hu with
  | filter h1 h2 =>
    rw [bind_of_ok (direct_name h1 t)]
    rw [if_pos]
    · exact ⟨_, _, rfl⟩
    · intro hc
      apply h2
      cases hk : enc.get? b!"Filter" with
      | none => rw [hk] at hc; cases hc
      | some o =>
        rw [hk] at hc
        cases o <;> first | (rw [show b!"Standard" = _ from hc.symm]; rfl) | cases hc
  | version h1 h2 h3 =>
    rw [bind_of_ok (Dict.getName_direct t h1 (by rintro n g ⟨⟩))]
    rw [if_neg (by decide), bind_of_ok (direct_int h2 t)]
    rw [if_pos]
    · exact ⟨_, _, rfl⟩
    · cases hk : ((enc.get? b!"V").bind Obj.asNum?).map F64.toInt with
      | none => decide
      | some n => exact h3 n (intEntry_iff.2 hk)
  | @revision v h1 h2 h3 h4 h5 =>
    rw [bind_of_ok (Dict.getName_direct t h1 (by rintro n g ⟨⟩))]
    rw [if_neg (by decide), bind_of_ok (intEntry h2 _ t)]
    rw [if_neg (by simp only [Option.getD_some]; omega), bind_of_ok (direct_int h4 t)]
    rw [if_pos]
    · exact ⟨_, _, rfl⟩
    · cases hk : ((enc.get? b!"R").bind Obj.asNum?).map F64.toInt with
      | none => decide
      | some n => exact h5 n (intEntry_iff.2 hk)

/-- `SetPassword` fails when it cannot check passwords. -/
theorem setPassword_incomplete (cfg : Cfg) {rs : Env → Resolver} {ord : Order} {ls : LS} {us : List Update} {enc : Dict} (htr : ∀ k v, trailerFor us k = some v → ls.trailer.get? k = some v)
    (h : ∀ sh t, ∃ t', Dict.getDict (rs { ls.env cfg with sh := sh }) ls.trailer b!"Encrypt" t = .ok (some enc, t'))
    (hi : Incomplete us enc) (password : Bytes) : ∃ ls', setPassword cfg rs ord password ls = .ok (some .error, ls') ∧ SameFilters ls'.sh ls.sh := by
  suffices hs : ∃ sh' t', secInit cfg.ext (fun sh => rs { ls.env cfg with sh := sh }) ord password ls.trailer ls.sh ls.ps = .ok ((some .error, sh'), t') by
    obtain ⟨sh', t', hs⟩ := hs
    have hr : setPassword cfg rs ord password ls = .ok (some .error, { ls with ps := t', sh := sh' }) := by rw [setPassword, hs]; rfl
    exact ⟨_, hr, (C39_unchanged _ _ _ _ _ _ hr).1 (by simp)⟩
  obtain ⟨t, ht⟩ := h ls.sh ls.ps
  obtain ⟨h1, ⟨v, h2, h2'⟩, ⟨r, h3, h3'⟩, ⟨d1, d2, d3, d4, d5⟩, hm⟩ := hi
  rw [secInit, bind_of_ok ht]
  dsimp only
  rw [bind_of_ok (Dict.getName_direct t h1 (by rintro n g ⟨⟩))]
  rw [if_neg (by decide), bind_of_ok (intEntry h2 _ t)]
  rw [if_neg (by simp only [Option.getD_some]; omega), bind_of_ok (intEntry h3 _ t)]
  rw [if_neg (by simp only [Option.getD_some]; omega)]
  have hlen : ∀ rs, ∃ l, lengthEntry rs enc ((some v).getD 0) t = .ok (l, t) := by
    intro rs
    rw [lengthEntry]
    split
    · exact ⟨_, rfl⟩
    · exact ⟨_, direct_int d1 t⟩
  obtain ⟨l, hl⟩ := hlen _
  rw [bind_of_ok hl, bind_of_ok (direct_str d2 t)]
  cases ho : (enc.get? b!"O").bind Obj.asStr? with
  | none => exact ⟨_, _, rfl⟩
  | some o =>
    dsimp only
    rw [bind_of_ok (direct_str d3 t)]
    cases hu : (enc.get? b!"U").bind Obj.asStr? with
    | none => exact ⟨_, _, rfl⟩
    | some u =>
      dsimp only
      rw [bind_of_ok (direct_int d4 t)]
      cases hp : ((enc.get? b!"P").bind Obj.asNum?).map F64.toInt with
      | none => exact ⟨_, _, rfl⟩
      | some p =>
        dsimp only
        rw [bind_of_ok (direct_bool d5 t)]
        have hstr : ∀ {k x}, (enc.get? k).bind Obj.asStr? = some x → enc.get? k = some (.str x) := by
          intro k x hx
          cases hk : enc.get? k with
          | none => rw [hk] at hx; cases hx
          | some y => rw [hk] at hx; cases y <;> first | (cases hx; rfl) | cases hx
        rcases hm with hm | hm | hm | ⟨w, h5, h6, h7, h8⟩
        · exact absurd (hstr ho) (hm _)
        · exact absurd (hstr hu) (hm _)
        · exact absurd (intEntry_iff.2 hp) (hm _)
        · rw [bind_of_ok (Dict.getArray_direct t (htr _ _ h5) h6)]
          cases w with
          | arr ids =>
            dsimp only [Obj.asArr?]
            cases ids with
            | nil =>
              have ha : ∀ rs, Arr.getString rs [] 0 t = .ok (none, t) := fun rs => Arr.getString_none t (i := 0) rfl
              rw [bind_of_ok (ha _)]
              exact ⟨_, _, rfl⟩
            | cons x more =>
              have ha : ∀ rs, Arr.getString rs (x :: more) 0 t = .ok (x.asStr?, t) := fun rs => Arr.getString_direct t (i := 0) (o := x) rfl fun n g hx => h7 n g more (by rw [hx])
              rw [bind_of_ok (ha _)]
              cases x with
              | str x => exact absurd rfl (h8 x more)
              | _ => exact ⟨_, _, rfl⟩
          | _ => exact ⟨_, _, rfl⟩

/-- **C77** A document whose encryption is not supported is refused, whatever the password: `Parse` returns the error for that, and
writes nothing. -/
theorem C77_unsupported {sys : Sys} {v : Bool} (hf : sys.input = some (docText P us)) (hc : ∀ h, sys.canCreate h = true) {rd : Reading} (hcd : rd.cd = ext.toCodecs) (ho : rd.Open skip)
    (hd : Document rd P us) (hr : RightTables (docText P us) P.length us) (ht : Typed us) (he : EncryptAt us enc skip) (hu : Unsupported enc) (pw : Bytes) {f fx ft : Nat} (h1 : 1 ≤ f) (hfx : us.length ≤ fx) :
    (parse sys ext (some v) f fx ft pw).outcome = .returned (some .unsupported) ∧ (parse sys ext (some v) f fx ft pw).out = {} := by
  obtain ⟨s, g1, -, -, g2⟩ := crypt_start (ext := ext) hcd ho hd hr ht he (some v) sys.order
  obtain ⟨ls, g3, -⟩ := setPassword_unsupported (ord := sys.order.next) ⟨docText P us, ext, some v⟩ (rs := fun env => resolver env 1) g2 hu pw
  exact parse_refused hf hc ((g1 pw).trans g3) h1 hfx

/-- **C77** A document without what is needed to check passwords is refused, whatever the password. -/
theorem C77_incomplete {sys : Sys} {v : Bool} (hf : sys.input = some (docText P us)) (hc : ∀ h, sys.canCreate h = true) {rd : Reading} (hcd : rd.cd = ext.toCodecs) (ho : rd.Open skip)
    (hd : Document rd P us) (hr : RightTables (docText P us) P.length us) (ht : Typed us) (he : EncryptAt us enc skip) (hi : Incomplete us enc) (pw : Bytes) {f fx ft : Nat} (h1 : 1 ≤ f) (hfx : us.length ≤ fx) :
    (parse sys ext (some v) f fx ft pw).outcome = .returned (some .error) ∧ (parse sys ext (some v) f fx ft pw).out = {} := by
  obtain ⟨s, g1, -, g0, g2⟩ := crypt_start (ext := ext) hcd ho hd hr ht he (some v) sys.order
  obtain ⟨ls, g3, -⟩ := setPassword_incomplete (ord := sys.order.next) ⟨docText P us, ext, some v⟩ (rs := fun env => resolver env 1) g0 g2 hi pw
  exact parse_refused hf hc ((g1 pw).trans g3) h1 hfx

/-! ### An encrypted document -/

/-- The /U entry of the example. -/
def secretU : Bytes := [232, 151, 219, 198, 217, 138, 238, 109, 246, 28, 183, 211, 176, 158, 3, 103, 4, 65, 121, 54, 114, 243, 50, 110, 21, 99, 45, 60, 124, 96, 72, 251]

/-- The /O entry of the example, for the owner password `own3` and the user password `pw`. -/
def secretO : Bytes := [194, 171, 162, 81, 208, 84, 12, 188, 206, 73, 20, 204, 44, 116, 169, 252, 36, 138, 70, 160, 69, 76, 96, 26, 73, 194, 106, 250, 138, 72, 7, 236]

/-- The encryption dictionary of the example: revision 2, 40 bit keys. -/
def secretEnc : Dict := [(b!"Filter", .name b!"Standard"), (b!"V", .num (intNum false 1)), (b!"R", .num (intNum false 2)), (b!"O", .str secretO), (b!"U", .str secretU), (b!"P", .num (intNum true 4))]

def secretStd : StdDict := ⟨1, 2, 5, secretO, secretU, -4, b!"id", true⟩

def secretKey : Bytes := [212, 118, 97, 116, 153]

def secretSecrecy : Secrecy := ⟨some secretKey, some secretKey, some secretKey⟩

/-- Object 2 has a URI, encrypted in the file; object 3 is the encryption dictionary. -/
def secretUpdate : Update where
  parts := [⟨⟨1, 0, .dict [(b!"Type", .name b!"Catalog")], none⟩, [], (⟨1, 0, .dict [(b!"Type", .name b!"Catalog")], none⟩ : IndObj).toBytes ++ b!"\n"⟩,
    ⟨⟨2, 0, .dict [(b!"URI", .str b!"http://x")], none⟩, [], (⟨2, 0, .dict [(b!"URI", .str [32, 141, 90, 133, 217, 250, 55, 107])], none⟩ : IndObj).toBytes ++ b!"\n"⟩,
    ⟨⟨3, 0, .dict secretEnc, none⟩, [], (⟨3, 0, .dict secretEnc, none⟩ : IndObj).toBytes ++ b!"\n"⟩]
  sect := .table [(0, [⟨0, 9, false⟩, ⟨9, 0, true⟩, ⟨44, 0, true⟩, ⟨80, 0, true⟩])] [(b!"Encrypt", .ref 3 0), (b!"ID", .arr [.str b!"id"])] []
    b!"xref\n0 4\n0 9 f \n9 0 n \n44 0 n \n80 0 n \ntrailer\n" b!"/Encrypt 3 0 R/ID[(id)]>>" b!"\n"
  back := b!"startxref\n205\n%%EOF\n"

theorem regular_all {v : Bytes} (h : v.all (fun b => decide (Spec.IsRegular b ∧ b ≠ 35)) = true) : NameText v v [] := nameText_plain v fun b hb => by simpa using List.all_eq_true.1 h b hb

theorem plain_all {v : Bytes} (h : v.all (fun b => decide (b ≠ 40 ∧ b ≠ 41 ∧ b ≠ 92)) = true) : StrText v v [] := strText_plain fun b hb => by simpa using List.all_eq_true.1 h b hb

theorem secretEnc_plain : Plain (.dict secretEnc) :=
  .dict (.cons (regular_all (by decide)) (.name (regular_all (by decide))) (.cons (regular_all (by decide)) (.int (by decide)) (.cons (regular_all (by decide)) (.int (by decide))
    (.cons (regular_all (by decide)) (.str (plain_all (by decide))) (.cons (regular_all (by decide)) (.str (plain_all (by decide))) (.cons (regular_all (by decide)) (.int (by decide)) .nil)))))) (by decide)

/-- A printed object without a stream. -/
theorem raw_printed {n : Int} {v : Obj} (hn : 0 ≤ n ∧ n < 2 ^ 63) (hp : Plain v) (hw : hasWord b!"obj" v.toBytes = false) : RawText ⟨n, 0, v, none⟩ [] ((⟨n, 0, v, none⟩ : IndObj).toBytes ++ b!"\n") := by
  exact Spec.Reprintable.raw (o := ⟨n, 0, v, none⟩) ⟨hn, ⟨(Int.le_refl 0 : (0 : Int) ≤ 0), (by decide : (0 : Int) < 2 ^ 63)⟩, hp, (lacks_dec hw).noHeader, fun d h => by cases h⟩

set_option maxRecDepth 100000 in
theorem secret_sealed : sealed Concrete.ext.md5 rc4 secretSecrecy ⟨2, 0, .dict [(b!"URI", .str b!"http://x")], none⟩ = ⟨2, 0, .dict [(b!"URI", .str [32, 141, 90, 133, 217, 250, 55, 107])], none⟩ := by
  have h : hide Concrete.ext.md5 rc4 (some secretKey) 2 0 b!"http://x" = [32, 141, 90, 133, 217, 250, 55, 107] := by decide +kernel
  show IndObj.mk 2 0 (.dict [(_, .str (hide Concrete.ext.md5 rc4 (some secretKey) 2 0 b!"http://x"))]) none = _
  rw [h]

abbrev secretReading : Reading := .secret Concrete.ext.md5 rc4 Concrete.ext.toCodecs secretSecrecy (some 3)

set_option maxRecDepth 100000 in
theorem secretUpdate_at : UpdateAt secretReading (fun _ => False) docHead.length none secretUpdate b!"\n" where
  parts := by
    intro p hp
    simp only [secretUpdate, List.mem_cons, List.not_mem_nil, or_false] at hp
    rcases hp with rfl | rfl | rfl
    · refine ⟨_, raw_printed (by decide) (.dict (.cons (regular_all (by decide)) (.name (regular_all (by decide))) .nil) (by decide)) (by decide), ?_⟩
      refine Secret.hidden (m := ⟨1, 0, .dict [(b!"Type", .name b!"Catalog")], none⟩) ?_ (by decide) .value
      rintro d ⟨⟩; decide
    · refine ⟨_, raw_printed (by decide) (.dict (.cons (regular_all (by decide)) (.str (plain_all (by decide))) .nil) (by decide)) (by decide), ?_⟩
      rw [← secret_sealed]
      refine Secret.hidden ?_ (by decide) .value
      rintro d ⟨⟩; decide
    · exact ⟨_, raw_printed (by decide) secretEnc_plain (by decide), .plain (.inr rfl) .value⟩
  sect := by
    refine .table rfl ?_ ?_ ⟨b!"\n0 4\n0 9 f \n9 0 n \n44 0 n \n80 0 n \ntrailer\n", rfl⟩ (by decide) ?_
    · intro p hp
      simp only [secretUpdate, List.mem_cons, List.not_mem_nil, or_false] at hp
      rcases hp with rfl | rfl | rfl <;> (rintro d ⟨⟩; decide)
    · have sp : Gap [32] := gap_of (by decide)
      have nl : Gap [10] := gap_of (by decide)
      have sn : Gap [32, 10] := gap_of (by decide)
      exact .mk (w := []) (w1 := [32, 10]) (w2 := [10]) .nil (.cons (w := [10]) (w1 := [32]) (ls := [⟨0, 9, false⟩, ⟨9, 0, true⟩, ⟨44, 0, true⟩, ⟨80, 0, true⟩]) nl (.mk (ds := [0]) (by decide) (by decide) (by decide)) sp (.mk (ds := [4]) (by decide) (by decide) (by decide))
      (.cons (w := [10]) (w1 := [32]) (w2 := [32]) (u := false) nl (.mk (ds := [0]) (by decide) (by decide) (by decide)) sp (.mk (ds := [9]) (by decide) (by decide) (by decide)) sp
      (.cons (w := [32, 10]) (w1 := [32]) (w2 := [32]) (u := true) sn (.mk (ds := [9]) (by decide) (by decide) (by decide)) sp (.mk (ds := [0]) (by decide) (by decide) (by decide)) sp
      (.cons (w := [32, 10]) (w1 := [32]) (w2 := [32]) (u := true) sn (.mk (ds := [4, 4]) (by decide) (by decide) (by decide)) sp (.mk (ds := [0]) (by decide) (by decide) (by decide)) sp
      (.cons (w := [32, 10]) (w1 := [32]) (w2 := [32]) (u := true) sn (.mk (ds := [8, 0]) (by decide) (by decide) (by decide)) sp (.mk (ds := [0]) (by decide) (by decide) (by decide)) sp .nil)))) (by decide) .nil) sn nl.1
    · intro z
      exact .cons (w := []) (kt := b!"Encrypt") (w' := b!" ") (t := b!"3 0 R") (u := b!"/ID[(id)]>>") (e := []) (e' := []) (e'' := []) .nil (nameText_plain _ (by decide)) (blank_of_white (by decide))
        (by rintro b t ⟨⟩; decide) (.ref (ds := [3]) (w := b!" ") (gs := [0]) (w' := b!" ") (by decide) (by decide) (by decide) (blank_of_white (by decide)) (by decide) (by decide) (by decide) (by decide)
        (blank_of_white (by decide)) (by decide) (by rintro b t ⟨⟩; decide))
        (.cons (w := []) (kt := b!"ID") (w' := []) (t := b!"[(id)]") (u := b!">>") (e := []) (e' := []) (e'' := []) .nil (nameText_plain _ (by decide)) .nil (by rintro b t ⟨⟩; decide)
          (.arr (t := b!"(id)]") (.cons (w := []) (t := b!"(id)") (u := b!"]") (e := []) (e' := []) .nil (.str (t := b!"id") (strText_plain (by decide))) (.nil (w := []) .nil))) (.nil (w := []) .nil))
  back := by
    have := BackText.mk (w := b!"\n") (w' := b!"\n") (r := b!"\n") (ds := [2, 0, 5]) (by decide) (by decide) (by decide) (by decide) (by decide)
    exact ⟨_, this, .inl (by decide)⟩
  word := lacks_dec (by decide)
  hasPrev := by rintro p ⟨⟩
  noPrev _ := by decide
  first h := absurd rfl h

set_option maxRecDepth 100000 in
/-- The hypotheses of the theorems on encrypted documents, for a document with the user password `pw`. -/
theorem secret_document : Document secretReading docHead [secretUpdate] ∧ RightTables (docText docHead [secretUpdate]) docHead.length [secretUpdate] ∧ Typed [secretUpdate] ∧ EncryptAt [secretUpdate] secretEnc (some 3) ∧
    StdEntries [secretUpdate] secretEnc secretStd ∧ UserPassword Concrete.ext.md5 rc4 secretStd b!"pw" ∧ ¬ UserPassword Concrete.ext.md5 rc4 secretStd b!"no" ∧
    Keys Concrete.ext.md5 secretEnc secretStd b!"pw" secretSecrecy ∧ KidsEnd [secretUpdate] ∧ StreamsLoad [secretUpdate] := by
  have hk : stdKey Concrete.ext.md5 secretStd b!"pw" = secretKey := by decide +kernel
  refine ⟨⟨.linked (.last secretUpdate_at (by decide)), (by rintro u ⟨⟩; decide), lacks_dec (by decide), ?_, noOpen_dec (by decide), words_dec (by decide +kernel), by decide +kernel⟩,
    (rightTables_plain (by decide)).2 ⟨rightTable_dec (by decide) (by decide), trivial⟩, ?_, .indirect (g := 0) (p := secretUpdate.parts[2]) (by decide) (by rfl) (by rfl), ?_, ?_, ?_, ?_, ?_, ?_⟩
  · intro a b h
    have := (List.append_inj' (show b!"%PDF-1.4" ++ b!"\n" = a ++ [b] from h) rfl).2
    cases this
    unfold IsDec; decide
  · refine ⟨?_, fun h => by cases h⟩
    intro u hu _ _ _ _ _ _ h
    rw [List.mem_singleton] at hu
    subst hu
    cases h
  · exact ⟨by rfl, ⟨_, by rfl, by decide⟩, ⟨_, by rfl, by decide⟩, by decide, by decide, .inl ⟨by rfl, by rfl⟩, by rfl, by rfl, (fun h => absurd h (by decide)), ⟨_, by rfl, by decide⟩, .inl ⟨by rfl, by rfl⟩, [], by rfl⟩
  · rw [UserPassword, stdU, hk]; decide +kernel
  · rw [UserPassword]; decide +kernel
  · have := Keys.all (md5 := Concrete.ext.md5) (enc := secretEnc) (d := secretStd) (password := b!"pw") (by decide)
    rw [hk] at this
    exact this
  · refine KidsInPlace.ends fun n p hp d hd m g => ?_
    obtain ⟨u, hu, hpu⟩ := meant_part hp
    cases List.mem_singleton.1 hu
    simp only [secretUpdate, List.mem_cons, List.not_mem_nil, or_false] at hpu
    rcases hpu with rfl | rfl | rfl <;> (simp [dictsIn, dictsInValues, secretEnc] at hd; subst hd; intro h; cases h)
  · intro n p hp data hd
    obtain ⟨u, hu, hpu⟩ := meant_part hp
    cases List.mem_singleton.1 hu
    simp only [secretUpdate, List.mem_cons, List.not_mem_nil, or_false] at hpu
    rcases hpu with rfl | rfl | rfl <;> cases hd

/-- A document with an encryption dictionary in the trailer. -/
def refusedUpdate (enc : Dict) (text : Bytes) : Update where
  parts := [⟨⟨1, 0, .dict [(b!"Type", .name b!"Catalog")], none⟩, [], (⟨1, 0, .dict [(b!"Type", .name b!"Catalog")], none⟩ : IndObj).toBytes ++ b!"\n"⟩]
  sect := .table [(0, [⟨0, 9, false⟩, ⟨9, 0, true⟩])] [(b!"Encrypt", .dict enc)] [] b!"xref\n0 2\n0 9 f \n9 0 n \ntrailer\n" (b!"/Encrypt" ++ (text ++ b!">>")) b!"\n"
  back := b!"startxref\n44\n%%EOF\n"

set_option maxRecDepth 100000 in
theorem refusedUpdate_at (cd : Codecs) {enc : Dict} {text : Bytes} (h : ∀ r, ObjAt (.dict enc) text (b!">>" ++ r) []) (hs : ∀ r, Stops (text ++ r)) (hw : hasWord b!"obj" (refusedUpdate enc text).tail = false) :
    UpdateAt cd (fun _ => False) docHead.length none (refusedUpdate enc text) b!"\n" where
  parts := by
    intro p hp
    simp only [refusedUpdate, List.mem_cons, List.not_mem_nil, or_false] at hp
    subst hp
    exact ⟨_, raw_printed (by decide) (.dict (.cons (regular_all (by decide)) (.name (regular_all (by decide))) .nil) (by decide)) (by decide), .value⟩
  sect := by
    refine .table rfl ?_ ?_ ⟨b!"\n0 2\n0 9 f \n9 0 n \ntrailer\n", rfl⟩ (by decide) ?_
    · intro p hp
      simp only [refusedUpdate, List.mem_cons, List.not_mem_nil, or_false] at hp
      subst hp
      rintro d ⟨⟩; decide
    · have sp : Gap [32] := gap_of (by decide)
      have nl : Gap [10] := gap_of (by decide)
      have sn : Gap [32, 10] := gap_of (by decide)
      exact .mk (w := []) (w1 := [32, 10]) (w2 := [10]) .nil (.cons (w := [10]) (w1 := [32]) (ls := [⟨0, 9, false⟩, ⟨9, 0, true⟩]) nl (.mk (ds := [0]) (by decide) (by decide) (by decide)) sp (.mk (ds := [2]) (by decide) (by decide) (by decide))
      (.cons (w := [10]) (w1 := [32]) (w2 := [32]) (u := false) nl (.mk (ds := [0]) (by decide) (by decide) (by decide)) sp (.mk (ds := [9]) (by decide) (by decide) (by decide)) sp
      (.cons (w := [32, 10]) (w1 := [32]) (w2 := [32]) (u := true) sn (.mk (ds := [9]) (by decide) (by decide) (by decide)) sp (.mk (ds := [0]) (by decide) (by decide) (by decide)) sp .nil)) (by decide) .nil) sn nl.1
    · intro z
      exact .cons (w := []) (kt := b!"Encrypt") (w' := []) (t := text) (u := b!">>") (e := []) (e' := []) (e'' := []) .nil (nameText_plain _ (by decide)) .nil (hs _) (h _) (.nil (w := []) .nil)
  back := by
    have := BackText.mk (w := b!"\n") (w' := b!"\n") (r := b!"\n") (ds := [4, 4]) (by decide) (by decide) (by decide) (by decide) (by decide)
    exact ⟨_, this, .inl rfl⟩
  word := lacks_dec hw
  hasPrev := by rintro p ⟨⟩
  noPrev _ := by simp [refusedUpdate, Sect.trailer, dictOf, Assoc.get?, Assoc.set]
  first h := absurd rfl h

theorem refused_document (cd : Codecs) {enc : Dict} {text : Bytes} (h : UpdateAt cd (fun _ => False) docHead.length none (refusedUpdate enc text) b!"\n")
    (hw : ∀ o ∈ findXrefLoop (docText docHead [refusedUpdate enc text]) ((docText docHead [refusedUpdate enc text]).length + 1) 0 [], ∃ x ∈ xrefWords docHead.length [refusedUpdate enc text], o = (x : Nat))
    (hl : (docText docHead [refusedUpdate enc text]).length < 2 ^ 63) (hr : RightTable (docText docHead [refusedUpdate enc text]) (placedParts docHead.length (refusedUpdate enc text).parts) (refusedUpdate enc text).sect.entries) :
    Document cd docHead [refusedUpdate enc text] ∧ RightTables (docText docHead [refusedUpdate enc text]) docHead.length [refusedUpdate enc text] ∧ Typed [refusedUpdate enc text] ∧ EncryptAt [refusedUpdate enc text] enc none := by
  refine ⟨⟨.linked (.last h (show (b!"startxref\n44\n%%EOF\n").length ≤ 256 by decide)), (by rintro u ⟨⟩; exact List.cons_ne_nil _ _), lacks_dec (by decide), ?_, noOpen_dec (by decide), words_dec hw, hl⟩, (rightTables_plain (by rfl)).2 ⟨hr, trivial⟩, ?_, .direct (by rfl)⟩
  · intro a b h
    have := (List.append_inj' (show b!"%PDF-1.4" ++ b!"\n" = a ++ [b] from h) rfl).2
    cases this
    unfold IsDec; decide
  · refine ⟨?_, fun h => by cases h⟩
    intro u hu _ _ _ _ _ _ h
    rw [List.mem_singleton] at hu
    subst hu
    cases h

set_option maxRecDepth 100000 in
/-- The hypotheses of `C77_unsupported`: another handler. -/
example (ext : Ext) : let us := [refusedUpdate [(b!"Filter", .name b!"Other")] b!"<</Filter/Other>>"]
    Document ext.toCodecs docHead us ∧ RightTables (docText docHead us) docHead.length us ∧ Typed us ∧ EncryptAt us [(b!"Filter", .name b!"Other")] none ∧ Unsupported [(b!"Filter", .name b!"Other")] ∧
      Reading.Open ext.toCodecs none := by
  obtain ⟨h1, h2, h3, h4⟩ := refused_document ext.toCodecs (refusedUpdate_at ext.toCodecs (enc := [(b!"Filter", .name b!"Other")]) (text := b!"<</Filter/Other>>")
    (fun r => .dict (es := [(b!"Filter", .name b!"Other")]) (t := b!"/Filter/Other>>")
      (.cons (w := []) (kt := b!"Filter") (w' := []) (t := b!"/Other") (u := b!">>") (e := []) (e' := []) (e'' := []) .nil (nameText_plain _ (by decide)) .nil (by rintro b t ⟨⟩; decide)
        (.name (t := b!"Other") (nameText_plain _ (by decide)) (by rintro b t ⟨⟩; decide)) (.nil (w := []) .nil)))
    (by rintro r b t ⟨⟩; decide) (by decide)) (by decide +kernel) (by decide +kernel) (rightTable_dec (by decide) (by decide))
  refine ⟨h1, h2, h3, h4, .filter ?_ (by decide), ?_⟩
  · rintro n g h; cases h
  · intro a o h; cases h

set_option maxRecDepth 100000 in
/-- The hypotheses of `C77_incomplete`: no /O, /U, /P. -/
example (ext : Ext) : let enc : Dict := [(b!"Filter", .name b!"Standard"), (b!"V", .num (intNum false 1)), (b!"R", .num (intNum false 2))]
    let us := [refusedUpdate enc (Obj.dict enc).toBytes]
    Document ext.toCodecs docHead us ∧ RightTables (docText docHead us) docHead.length us ∧ Typed us ∧ EncryptAt us enc none ∧ Incomplete us enc ∧ Reading.Open ext.toCodecs none := by
  have hp : Plain (.dict [(b!"Filter", .name b!"Standard"), (b!"V", .num (intNum false 1)), (b!"R", .num (intNum false 2))]) :=
    .dict (.cons (regular_all (by decide)) (.name (regular_all (by decide))) (.cons (regular_all (by decide)) (.int (by decide)) (.cons (regular_all (by decide)) (.int (by decide)) .nil))) (by decide)
  obtain ⟨h1, h2, h3, h4⟩ := refused_document ext.toCodecs (refusedUpdate_at ext.toCodecs (enc := [(b!"Filter", .name b!"Standard"), (b!"V", .num (intNum false 1)), (b!"R", .num (intNum false 2))]) (text := (Obj.dict [(b!"Filter", .name b!"Standard"), (b!"V", .num (intNum false 1)), (b!"R", .num (intNum false 2))]).toBytes)
    (fun r => plain_objAt hp _ (by rintro b t ⟨⟩; decide) (no_refTail _))
    (by rintro r b t ⟨⟩; decide) (by decide)) (by decide +kernel) (by decide +kernel) (rightTable_dec (by decide) (by decide))
  refine ⟨h1, h2, h3, h4, ⟨by rfl, ⟨1, ⟨_, by rfl, by decide⟩, .inl rfl⟩, ⟨2, ⟨_, by rfl, by decide⟩, by decide⟩, ?_, .inl (fun x h => by cases h)⟩, ?_⟩
  · refine ⟨?_, ?_, ?_, ?_, ?_⟩ <;> (rintro n g h; cases h)
  · intro a o h; cases h

end Pdf.Props
