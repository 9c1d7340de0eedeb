import Verif.Lemmas.Reread
import Verif.Lemmas.Runs
import Verif.Props.Raw
/-!
Files made up of objects (C72): `Load` finds each of them, and reading a number gives the last object with it.
-/

namespace Pdf.Props
open Pdf Pdf.Spec St

/-- Reading the text of an object: strings and data are decrypted, then data is decoded. -/
theorem getObject_raw {env : Env} {a mid o : IndObj} {es : List Err} {T R : Bytes} (h : RawText a es T) {e : XrefEntry} (hu : InUse env a.number e (T ++ R)) {g : Bytes → Bytes}
    (hdec : ∀ b, stringDec env a.number e b = .ok (g b)) (hnum : mid.number = a.number) (hval : mid.value = mapStr g a.value) (hnone : a.stream = none → mid.stream = none)
    (hsome : ∀ D v, a.value = .dict D → a.stream = some v → ∃ p, decrypt env.ext env.verbose (newDecryptor env.ext (streamFilterOf env e D) a.number e.generation) v = .ok p ∧ mid.stream = some p)
    (hd : Decoded env.ext.toCodecs mid o) (f : Nat) (s : PS) :
    ∃ s', getObject env f a.number s = .ok (withGeneration o e.generation, s') ∧ s'.log = s.log ++ es := by
  have hb : ∀ {w : Bytes}, White w → Blank w := by
    intro w hw
    have : ∀ l : Bytes, (∀ b ∈ l, IsWhite b) → Blank l := by
      intro l
      induction l with
      | nil => intro _; exact .nil
      | cons c l ih => intro h; exact .ws (h c (by simp)) (ih fun b hb => h b (by simp [hb]))
    exact this w hw.2
  have hh : ∀ {n g : Nat} {h : Bytes}, Head n g h → ∃ ds gs, HeaderText ds gs h := by
    rintro n g h ⟨a1, a2, a3, a4, a5, a6, a7, a8⟩
    exact ⟨_, _, .mk (w := []) .nil a1 a2 (hb a7) a7.1 a4 a5 (hb a8)⟩
  cases h with
  | @value n g0 h w t w' u o0 es hd0 h1 h2 h3 h4 h5 h6 h7 h8 =>
    have hms := hnone rfl
    obtain ⟨ds, gs, hd0⟩ := hh hd0
    have hu' : InUse env (n : Int) e (h ++ (w ++ (t ++ (w' ++ (b!"endobj" ++ (u ++ R)))))) := by simpa using hu
    have hst : Stops (w ++ (t ++ (w' ++ (b!"endobj" ++ (u ++ R))))) := by
      have := stops_append (r := w' ++ (b!"endobj" ++ (u ++ R))) h2 (by simp [h3])
      simpa using this
    have hns : ¬ StreamNext (w' ++ (b!"endobj" ++ (u ++ R))) := by
      rw [streamNext_iff, lKeyword_word h5 (by decide) (by decide) (by
        refine stops_append ?_ h8.ne
        intro b t hb
        obtain ⟨b', t', e', hw⟩ := h8.first
        rw [hb] at e'
        obtain ⟨rfl, -⟩ := List.cons.inj e'
        exact fun h => h.1 hw)]
      simp
    obtain ⟨s', k1, k2⟩ := C58_object hu' hd0 h1 hst (h4 (u ++ R)) hns hdec f s
    refine ⟨s', ?_, k2⟩
    rw [k1]
    cases hd with
    | value => dsimp only at hnum hval; rw [withGeneration, hnum, hval]
    | stream _ _ _ _ _ => cases hms
  | @stream n g0 h w t w' eol d v y u D es hd0 h1 h2 h3 h4 h5 h6 h7 h8 h9 h10 h11 h12 h13 =>
    obtain ⟨p, hp, hms⟩ := hsome D v rfl rfl
    obtain ⟨ds, gs, hd0⟩ := hh hd0
    have hu' : InUse env (n : Int) e (h ++ (w ++ (t ++ (w' ++ (b!"stream" ++ ([] ++ (eol ++ (d ++ (endMark ++ (y ++ (b!"endobj" ++ (u ++ R))))))))))))  := by simpa using hu
    cases hd with
    | value => cases hms
    | @stream n1 g1 D1 v1 fs ps out f1 f2 f3 f4 f5 =>
      dsimp only at hnum hval hms
      cases hms
      have hval : D1 = mapStrD g D := by
        simp only [mapStr] at hval
        injection hval
      obtain ⟨s1, k1, -, k3⟩ := C59_stream_partial hu' hd0 h1 h2 h3 (h4 _) h5
        (by
          rintro b x hx
          rcases h6 [] with rfl | rfl | ⟨rfl, -⟩ <;> (cases hx; decide)) (by intro b hb; cases hb) (h6 _) (h7 _) h8
        (by simpa using h10) hdec (by rw [← hval]; exact f1) (by rw [← hval]; exact f2) (by
          intro x y hx
          refine f3 x y ?_
          rw [hval, mapStrD_get]
          show Option.map _ (Assoc.get? D _) = _
          rw [hx]; rfl) f4 hp f s
      refine ⟨s1, ?_, k1⟩
      rw [k3, f5, ← hval]
      show Res.ok _ = _
      rw [withGeneration, hnum]

/-- Reading the text of an object that is not encrypted. -/
theorem getObject_plain {env : Env} {o : IndObj} {es : List Err} {T R : Bytes} (h : ObjectText env.ext.toCodecs o es T) {e : XrefEntry} (hsh : env.sh = newSecurityHandler ∨ e.isEncrypted = false)
    (hu : InUse env o.number e (T ++ R)) (f : Nat) (s : PS) :
    ∃ s', getObject env f o.number s = .ok (withGeneration o e.generation, s') ∧ s'.log = s.log ++ es := by
  obtain ⟨a, h, hr⟩ := h
  obtain ⟨e1, -, -⟩ := Reading.same _ hr
  rw [← e1] at hu ⊢
  have hdec : ∀ b, stringDec env a.number e b = .ok (id b) := by
    intro b
    have : (if e.isEncrypted then env.sh.stringFilter else .none) = CryptFilter.none := by
      rcases hsh with hsh | hsh
      · rw [hsh]; split <;> rfl
      · rw [hsh]; rfl
    rw [stringDec, this, decrypt_none]; rfl
  refine getObject_raw h hu hdec rfl (mapStr_id (g := id) (fun _ => rfl) a.value).symm (fun h => h) (fun D v _ hv => ⟨v, ?_, hv⟩) hr f s
  have hsf : streamFilterOf env e D = .none := by
    rcases hsh with hsh | hsh
    · rw [streamFilterOf, hsh]; split
      · split <;> rfl
      · rfl
    · rw [streamFilterOf, hsh]; rfl
  rw [hsf, decrypt_none]; rfl

theorem getObject_entry {env : Env} (hsh : env.sh = newSecurityHandler) {o : IndObj} {es : List Err} {T R : Bytes} (h : ObjectText env.ext.toCodecs o es T) {e : XrefEntry}
    (hu : InUse env o.number e (T ++ R)) (f : Nat) (s : PS) :
    ∃ s', getObject env f o.number s = .ok (withGeneration o e.generation, s') ∧ s'.log = s.log ++ es :=
  getObject_plain h (.inl hsh) hu f s

theorem getObject_text {env : Env} (hsh : env.sh = newSecurityHandler) {o : IndObj} {es : List Err} {T R : Bytes} (h : ObjectText env.ext.toCodecs o es T) {e : XrefEntry}
    (hu : InUse env o.number e (T ++ R)) (hg : e.generation = o.generation) (f : Nat) (s : PS) :
    ∃ s', getObject env f o.number s = .ok (o, s') ∧ s'.log = s.log ++ es := by
  obtain ⟨s', h1, h2⟩ := getObject_entry hsh h hu f s
  refine ⟨s', ?_, h2⟩
  rw [h1, hg]; rfl

theorem no_start {file : Bytes} (h : Lacks b!"xref" file) (s : PS) : (getStartXrefOffset file s).1 = none := by
  have hno : ∀ a b, file.drop (file.length - 256) ≠ a ++ (b!"startxref" ++ b) := by
    intro a b e
    refine h (file.take (file.length - 256) ++ (a ++ b!"start")) b ?_
    conv => lhs; rw [← List.take_append_drop (file.length - 256) file, e]
    simp
  rw [getStart_eq, startOffset, last_none _ _ _ (no_start_zeros hno _)]

attribute [local irreducible] getStartXrefOffset in
/-- `Load` when there is no cross reference section. -/
theorem load_made {P Q : Bytes} {ps : List Part} {cfg : Cfg} (hm : Made cfg.ext.toCodecs P ps Q) (hx : ∀ p ∈ ps, NotXref p.obj) (hf : cfg.file = P ++ (joined ps ++ Q))
    (hno : Lacks b!"xref" cfg.file) (ord : Order) (f fx : Nat) (pw : Bytes) (s0 : PS) :
    ∃ s1 s2, load cfg ord (f + 1) fx pw { LS.init with ps := s0 } = .ok (none, s2) ∧ SectionsLoaded cfg (f + 1) fx { LS.init with ps := s0 } s1 ∧ s1.xref = [] ∧
      s2.trailer = [] ∧ s2.sh = newSecurityHandler ∧ ∀ n e, s2.xref.get? n = some e → ∃ pre ds, LooseAt cfg.file pre ds ∧ IsInt64Of (Spec.decVal ds) n := by
  have hxref : findXrefLoop cfg.file (cfg.file.length + 1) 0 [] = [] := by
    refine List.eq_nil_iff_forall_not_mem.2 fun o ho => ?_
    rcases (findXrefLoop_iff cfg.file _ 0 [] (by omega) (Nat.zero_le _) o).1 ho with h | ⟨pre, r, e, -⟩
    · cases h
    · exact hno _ _ e
  obtain ⟨objs, q, h1, h2⟩ := hm.scan hx hf f (s := { LS.init with ps := seek s0 cfg.file.length }) rfl
  obtain ⟨f1, f2, f3⟩ := findObjects_found h1
  have hstr : objs.filter (fun o => o.2.isXrefStream) = [] := by
    refine List.filter_eq_nil_iff.2 fun p hp => ?_
    rw [h2 p.1 p.2 (Assoc.get?_of_mem' f3 hp)]
    decide
  have hplan : loadPlan cfg (fun env => resolver env (f + 1)) { LS.init with ps := s0 } = .ok (([], objs), { LS.init with ps := (getStartXrefOffset cfg.file q).2 }) := by
    rw [loadPlan]
    refine (bind_of_ok (a := []) (t := { LS.init with ps := seek s0 cfg.file.length }) ?_).trans ?_
    · show (Res.ok (findXrefOffsets cfg.file s0) >>= fun p => Res.ok (p.1, ({ LS.init with ps := p.2 } : LS))) = _
      rw [findXrefOffsets, hxref]; rfl
    refine (bind_of_ok h1).trans ?_
    refine (bind_of_ok (a := none) (t := { LS.init with ps := (getStartXrefOffset cfg.file q).2 }) ?_).trans ?_
    · show (Res.ok (getStartXrefOffset cfg.file q) >>= fun p => Res.ok (p.1, ({ LS.init with ps := p.2 } : LS))) = _
      rw [show getStartXrefOffset cfg.file q = (none, (getStartXrefOffset cfg.file q).2) from Prod.ext (no_start hno q) rfl]
      rfl
    dsimp only
    rw [hstr]; rfl
  have hsec : loadAll cfg (fun env => getObject env (f + 1)) (fun env => resolver env (f + 1)) fx [] { LS.init with ps := (getStartXrefOffset cfg.file q).2 } =
    .ok ((), { LS.init with ps := (getStartXrefOffset cfg.file q).2 }) := rfl
  have hv := visited ord objs
  obtain ⟨s3, g1, g2, g3, g4, -⟩ := repairAll_run cfg (ord.visit objs) ((hv.map _).nodup_iff.2 f3) { LS.init with ps := (getStartXrefOffset cfg.file q).2 }
  refine ⟨_, s3, ?_, ⟨[], objs, _, hplan, hsec⟩, rfl, g2, g3, ?_⟩
  rotate_left
  · intro n e he
    cases ho : objs.get? n with
    | some o =>
      obtain ⟨pre, ds, k1, k2, -⟩ := f2 n o ho
      exact ⟨pre, ds, k1, k2⟩
    | none =>
      rw [g4 n (by rw [← Assoc.get?_perm hv.symm f3 n]; exact ho)] at he
      cases he
  rw [load, loadF]
  refine (bind_of_ok hplan).trans ?_
  dsimp only
  refine (bind_of_ok hsec).trans ?_
  refine (bind_of_ok g1).trans ?_
  refine (bind_of_ok (a := none) (t := s3) ?_).trans rfl
  rw [g2]; rfl

/-! ### C72 -/

/-- **C72** A file that has no cross reference section and is made up of objects, none of them a cross reference
stream: `Load` succeeds whatever the password and the order in which maps are visited; reading a number then gives the
last object of the file with it, and the messages its text gives; any other number is null. -/
theorem C72_read {P Q : Bytes} {ps : List Part} {ext : Ext} (hm : Made ext.toCodecs P ps Q) (hx : ∀ p ∈ ps, NotXref p.obj)
    (hno : Lacks b!"xref" (P ++ (joined ps ++ Q))) (verbose : Option Bool) (ord : Order) (f fx : Nat) (pw : Bytes) :
    ∃ ls, load ⟨P ++ (joined ps ++ Q), ext, verbose⟩ ord (f + 1) fx pw LS.init = .ok (none, ls) ∧ ls.trailer = [] ∧
      (∀ n p, lastWith ps n = some p → ∀ f' s, ∃ s', getObject (ls.env ⟨P ++ (joined ps ++ Q), ext, verbose⟩) f' n s = .ok (p.obj, s') ∧ s'.log = s.log ++ p.notes) ∧
      (∀ n, lastWith ps n = none → ∀ f' s, getObject (ls.env ⟨P ++ (joined ps ++ Q), ext, verbose⟩) f' n s = .ok (⟨n, 0, .null, none⟩, s)) := by
  obtain ⟨s1, ls, h1, h2, h3, h4, h5, h6⟩ := load_made (cfg := ⟨P ++ (joined ps ++ Q), ext, verbose⟩) hm hx rfl hno ord f fx pw PS.init
  refine ⟨ls, h1, h4, ?_, ?_⟩
  · intro n p hp f' s
    obtain ⟨hn, ps1, ps2, gs, e1, hl, hg, hg'⟩ := hm.last hp
    obtain ⟨e, k1, k2, k3, k4⟩ := C26_missing h1 h2 (n := n) (by rw [h3]; rfl) hl
    subst hn
    have hmem : p ∈ ps := by rw [e1]; simp
    refine getObject_text (T := p.text) (R := joined ps2 ++ Q) h5 (hm.pieces p hmem) ⟨k1, k3, by rw [k2]; exact Int.natCast_nonneg _, ?_⟩ ?_ f' s
    · show (P ++ (joined ps ++ Q)).drop e.offset.toNat = _
      rw [k2, Int.toNat_natCast, e1, joined_append, joined_cons]
      have : P ++ (joined ps1 ++ (p.text ++ joined ps2) ++ Q) = (P ++ joined ps1) ++ (p.text ++ (joined ps2 ++ Q)) := by simp
      rw [this, List.drop_left]
    · rw [hg]; exact IsInt64Of.unique k4 (int64_nat hg')
  · intro n hn f' s
    refine C16_null _ f' n ?_ s
    intro e he
    exfalso
    obtain ⟨pre, ds, hl, hi⟩ := h6 n e he
    obtain ⟨ps1, p, ps2, e1, -, e3⟩ := hm.loose hl
    obtain ⟨ds', gs', -, l1, -, l2, -⟩ := hm.marker e1
    have hq : p.obj.number = n := by
      rw [e3, l1] at hi
      rw [l1]
      exact IsInt64Of.unique (int64_nat l2) hi
    have := List.find?_eq_none.1 hn p (by rw [e1]; simp)
    simp [hq] at this

/-- Objects as printed, one after the other. -/
def printed (os : List IndObj) : Bytes := os.flatMap fun o => o.toBytes ++ b!"\n"

/-- The printed forms as pieces of a file. -/
def piecesOf (os : List IndObj) : List Part := os.map fun o => ⟨reread o, [], o.toBytes ++ b!"\n"⟩

theorem joined_printed (os : List IndObj) : joined (piecesOf os) = printed os := by
  rw [joined, piecesOf, printed, List.flatMap_map]

theorem made_printed {os : List IndObj} (h : ∀ o ∈ os, Reprintable o) (cd : Codecs) : Made cd [] (piecesOf os) [] where
  pieces := by
    intro p hp
    obtain ⟨o, ho, rfl⟩ := List.mem_map.1 hp
    exact (h o ho).text cd
  outside := lacks_nil (by decide)
  start := fun a b h => by simp at h
  noOpen := noOpen_nil

/-- **C73** Printed objects are read back as they are, except for a carriage return at the end of a stream's data;
of objects with the same number the last one. -/
theorem C73_printed {os : List IndObj} {ext : Ext} (h : ∀ o ∈ os, Reprintable o) (hx : ∀ o ∈ os, NotXref o) (hno : Lacks b!"xref" (printed os))
    (verbose : Option Bool) (ord : Order) (f fx : Nat) (pw : Bytes) :
    ∃ ls, load ⟨printed os, ext, verbose⟩ ord (f + 1) fx pw LS.init = .ok (none, ls) ∧
      (∀ a o b, os = a ++ o :: b → (∀ o' ∈ b, o'.number ≠ o.number) →
        ∀ f' s, ∃ s', getObject (ls.env ⟨printed os, ext, verbose⟩) f' o.number s = .ok (reread o, s') ∧ s'.log = s.log) ∧
      (∀ n, (∀ o ∈ os, o.number ≠ n) → ∀ f' s, getObject (ls.env ⟨printed os, ext, verbose⟩) f' n s = .ok (⟨n, 0, .null, none⟩, s)) := by
  have hm := made_printed h ext.toCodecs
  have e : ([] : Bytes) ++ (joined (piecesOf os) ++ []) = printed os := by rw [joined_printed]; simp
  obtain ⟨ls, h1, -, h2, h3⟩ := C72_read hm (by
    intro p hp
    obtain ⟨o, ho, rfl⟩ := List.mem_map.1 hp
    exact hx o ho) (by rw [e]; exact hno) verbose ord f fx pw
  rw [e] at h1 h2 h3
  refine ⟨ls, h1, ?_, ?_⟩
  · intro a o b he hb f' s
    obtain ⟨s', k1, k2⟩ := h2 o.number ⟨reread o, [], o.toBytes ++ b!"\n"⟩ (by
      rw [lastWith, he, piecesOf, List.map_append, List.map_cons, List.reverse_append, List.reverse_cons, List.append_assoc, List.find?_append,
        List.find?_eq_none.2, Option.none_or]
      · rw [List.singleton_append, List.find?_cons_of_pos]
        simp [reread]
      · intro p hp
        obtain ⟨q, hq, rfl⟩ := List.mem_map.1 (List.mem_reverse.1 hp)
        simp [reread, hb q hq]) f' s
    exact ⟨s', k1, by simpa using k2⟩
  · intro n hn f' s
    refine h3 n ?_ f' s
    rw [lastWith, List.find?_eq_none]
    intro p hp
    obtain ⟨q, hq, rfl⟩ := List.mem_map.1 (List.mem_reverse.1 hp)
    simp [reread, hn q hq]

theorem getObject_number {env : Env} {f : Nat} {n : Int} {s s' : PS} {o : IndObj} (h : getObject env f n s = .ok (o, s')) : o.number = n := by
  rw [getObject, getObjectF] at h
  cases hx : env.xref.get? n with
  | none => rw [hx] at h; cases h; rfl
  | some e =>
    rw [hx] at h
    dsimp only at h
    split at h
    · obtain ⟨_, _, -, h⟩ := St.bind_ok h
      obtain ⟨_, _, -, h⟩ := St.bind_ok h
      obtain ⟨_, _, -, h⟩ := St.bind_ok h
      obtain ⟨_, _, -, h⟩ := St.bind_ok h
      cases h; rfl
    · cases h; rfl

/-- What `Printed` says. -/
theorem printed_iff {os : List IndObj} {b : Bytes} (h : Printed os b) : ∃ vs : List IndObj, b = printed vs ∧ vs.map (·.number) = os.map (·.number) ∧
    (∀ v ∈ vs, ∃ o ∈ os, ∃ x, Reordered o.value x ∧ v = withValue o x) ∧ ∀ o ∈ os, ∃ v ∈ vs, ∃ x, Reordered o.value x ∧ v = withValue o x := by
  induction h with
  | nil => exact ⟨[], rfl, rfl, fun v hv => (by cases hv), fun o ho => (by cases ho)⟩
  | @cons o v l b hr _ ih =>
    obtain ⟨vs, e1, e2, e3, e4⟩ := ih
    refine ⟨withValue o v :: vs, by rw [e1]; simp [printed, withValue], by simp [e2, withValue], ?_, ?_⟩
    · intro w hw
      rcases List.mem_cons.1 hw with rfl | hw
      · exact ⟨o, by simp, v, hr, rfl⟩
      · obtain ⟨o', ho', x, h1, h2⟩ := e3 w hw
        exact ⟨o', by simp [ho'], x, h1, h2⟩
    · intro w hw
      rcases List.mem_cons.1 hw with rfl | hw
      · exact ⟨_, by simp, v, hr, rfl⟩
      · obtain ⟨o', ho', x, h1, h2⟩ := e4 w hw
        exact ⟨o', by simp [ho'], x, h1, h2⟩

/-- **C73, partial** raw.pdf can be parsed again: when `Parse` returns without an error and each object it read prints as a text of
itself, `Load` of raw.pdf succeeds and reading the number of an object gives that object again, up to the
order of dictionary entries and a carriage return at the end of data. Missing: streams with filters, whose data is
printed decoded while the dictionary still names the filters (`C73_false`), and values that print as something else (C08). -/
theorem C73_raw_partial {sys : Sys} {ext : Ext} {verbose : Option Bool} {f fx ft : Nat} {pw : Bytes} {r : ParseResult} (hr : parse sys ext verbose f fx ft pw = r)
    (h : r.outcome = .returned none) :
    ∃ file ls, sys.input = some file ∧ load ⟨file, ext, verbose⟩ sys.order f fx pw LS.init = .ok (none, ls) ∧
      ∃ os : List (Int × IndObj), (∀ n, n ∈ os.map (·.1) ↔ ∃ e, ls.xref.get? n = some e ∧ e.typ = 1) ∧ (∀ p ∈ os, ∃ s s', getObject (ls.env ⟨file, ext, verbose⟩) f p.1 s = .ok (p.2, s')) ∧
        ((∀ p ∈ os, ∀ x, Reordered p.2.value x → Reprintable (withValue p.2 x) ∧ NotXref (withValue p.2 x)) → Lacks b!"xref" r.out.raw →
          ∀ (verbose' : Option Bool) (ord : Order) (f' fx' : Nat) (pw' : Bytes), ∃ ls', load ⟨r.out.raw, ext, verbose'⟩ ord (f' + 1) fx' pw' LS.init = .ok (none, ls') ∧
            ∀ p ∈ os, ∃ x, Reordered p.2.value x ∧ ∀ f'' s, ∃ s', getObject (ls'.env ⟨r.out.raw, ext, verbose'⟩) f'' p.1 s = .ok (reread (withValue p.2 x), s') ∧ s'.log = s.log) := by
  obtain ⟨file, ls, h1, h2, os, h3, h4, h5, h6⟩ := C71_raw hr h
  refine ⟨file, ls, h1, h2, os, h4, h5, fun ha hno verbose' ord f' fx' pw' => ?_⟩
  obtain ⟨vs, e1, e2, e3, e4⟩ := printed_iff h6
  have hnum : ∀ p ∈ os, p.2.number = p.1 := fun p hp => by
    obtain ⟨s, s', hg⟩ := h5 p hp
    exact getObject_number hg
  have hnd : (vs.map (·.number)).Nodup := by
    rw [e2, List.map_map]
    have : os.map ((·.number) ∘ fun x => x.2) = os.map (·.1) := List.map_congr_left hnum
    rw [this]; exact h3
  have hv : ∀ v ∈ vs, Reprintable v ∧ NotXref v := by
    intro v hv
    obtain ⟨o, ho, x, k1, rfl⟩ := e3 v hv
    obtain ⟨p, hp, rfl⟩ := List.mem_map.1 ho
    exact ha p hp x k1
  rw [e1] at hno ⊢
  obtain ⟨ls', k1, k2, -⟩ := C73_printed (ext := ext) (fun v h => (hv v h).1) (fun v h => (hv v h).2) hno verbose' ord f' fx' pw'
  refine ⟨ls', k1, fun p hp => ?_⟩
  obtain ⟨v, hv, x, k3, rfl⟩ := e4 p.2 (List.mem_map_of_mem hp)
  refine ⟨x, k3, ?_⟩
  obtain ⟨a, b, hab⟩ := List.append_of_mem hv
  have := k2 a _ b hab (by
    intro o' ho' he
    rw [hab, List.map_append, List.map_cons, List.nodup_append] at hnd
    exact (List.nodup_cons.1 hnd.2.1).1 (List.mem_map.2 ⟨o', ho', he⟩))
  rwa [show (withValue p.2 x).number = p.1 from hnum p hp] at this

/-! ### Files that meet the hypotheses -/

/-- does `lit` occur? -/
def hasWord (lit : Bytes) : Bytes → Bool
  | [] => lit.isPrefixOf []
  | b :: t => lit.isPrefixOf (b :: t) || hasWord lit t

theorem lacks_dec {lit : Bytes} : ∀ {t : Bytes}, hasWord lit t = false → Lacks lit t := by
  have key : ∀ a b, hasWord lit (a ++ (lit ++ b)) = true := by
    intro a b
    induction a with
    | nil =>
      rw [List.nil_append]
      cases h : lit ++ b with
      | nil => rw [hasWord, ← h]; simp
      | cons c l => rw [hasWord, ← h]; simp
    | cons c a ih => rw [List.cons_append, hasWord, ih]; simp
  rintro t h a b rfl
  rw [key] at h
  cases h

/-- is a comment open at the end? -/
def openEnd : Bytes → Bool
  | [] => false
  | b :: t => (b = 37 && ! t.any fun c => c = 10 || c = 13) || openEnd t

theorem noOpen_dec {t : Bytes} (h : openEnd t = false) : NoOpen t := by
  intro a c e
  subst e
  induction a with
  | nil =>
    rw [List.nil_append, openEnd, Bool.or_eq_false_iff] at h
    simpa using h.1
  | cons b a ih =>
    rw [List.cons_append, openEnd, Bool.or_eq_false_iff] at h
    exact ih h.2

theorem strText_plain {v : Bytes} (h : ∀ b ∈ v, b ≠ 40 ∧ b ≠ 41 ∧ b ≠ 92) : StrText v v [] := by
  induction v with
  | nil => exact .nil
  | cons b v ih =>
    obtain ⟨h1, h2, h3⟩ := h b (by simp)
    exact .plain h1 h2 h3 (ih fun c hc => h c (by simp [hc]))

theorem stops_dec {t : Bytes} (h : t.head?.all (fun b => decide (¬ Spec.IsRegular b)) = true) : Stops t := by
  rintro b u rfl
  simpa using h

/-- two versions of object 1, and object 2 -/
def twoVersions : List Part :=
  [⟨⟨1, 0, .str b!"old", none⟩, [], b!"1 0 obj\n(old)\nendobj\n"⟩, ⟨⟨2, 0, .dict [(b!"Type", .name b!"Catalog")], none⟩, [], b!"2 0 obj <</Type/Catalog>> %end\nendobj\r\n%%EOF\n7 junk 8\n"⟩,
   ⟨⟨1, 0, .str b!"new", none⟩, [], b!"01  0\nobj(new)endobj\n"⟩]

theorem twoVersions_made (cd : Codecs) : Made cd b!"%PDF-1.4\n" twoVersions b!"trailer <</Root 2 0 R>>" where
  pieces := by
    intro p hp
    simp only [twoVersions, List.mem_cons, List.not_mem_nil, or_false] at hp
    have hb : ∀ {w : Bytes}, (∀ b ∈ w, IsWhite b) → Blank w := by
      intro l
      induction l with
      | nil => intro _; exact .nil
      | cons c l ih => intro h; exact .ws (h c (by simp)) (ih fun b hb => h b (by simp [hb]))
    rcases hp with rfl | rfl | rfl
    · exact ObjectText.value (h := b!"1 0 obj") (w := b!"\n") (t := b!"(old)") (w' := b!"\n") (u := b!"\n")
        (.mk (ds := [1]) (gs := [0]) (w := b!" ") (w' := b!" ") (by decide) (by decide) (by decide) (by decide) (by decide) (by decide) ⟨by decide, by decide⟩ ⟨by decide, by decide⟩)
        (hb (by decide)) (stops_dec (by decide)) (by decide) (fun r => .str (t := b!"old") (strText_plain (by decide))) (hb (by decide)) (lacks_dec (by decide)).noHeader (noOpen_dec (by decide)) (Break.between ⟨by decide, by decide⟩)
    · exact ObjectText.value (h := b!"2 0 obj") (w := b!" ") (t := b!"<</Type/Catalog>>") (w' := b!" %end\n") (u := b!"\r\n%%EOF\n7 junk 8\n")
        (.mk (ds := [2]) (gs := [0]) (w := b!" ") (w' := b!" ") (by decide) (by decide) (by decide) (by decide) (by decide) (by decide) ⟨by decide, by decide⟩ ⟨by decide, by decide⟩)
        (hb (by decide)) (stops_dec (by decide)) (by decide)
        (fun r => .dict (es := [(b!"Type", .name b!"Catalog")]) (t := b!"/Type/Catalog>>")
          (.cons (w := []) (kt := b!"Type") (w' := []) (t := b!"/Catalog") (u := b!">>") (e := []) (e' := []) (e'' := []) .nil (nameText_plain _ (by decide)) .nil (by rintro b t ⟨⟩; decide)
            (.name (t := b!"Catalog") (nameText_plain _ (by decide)) (by rintro b t ⟨⟩; decide)) (.nil (w := []) .nil)))
        (.ws (by decide) (.comment (c := b!"end") (e := 10) (t := []) (by decide) (.inl rfl) .nil)) (lacks_dec (by decide)).noHeader (noOpen_dec (by decide)) ⟨⟨13, _, rfl, by decide⟩, ⟨b!"\r\n%%EOF\n7 junk 8", b!"\n", rfl, by decide, by decide⟩, lacks_dec (by decide)⟩
    · exact ObjectText.value (h := b!"01  0\nobj") (w := []) (t := b!"(new)") (w' := []) (u := b!"\n")
        (.mk (ds := [0, 1]) (gs := [0]) (w := b!"  ") (w' := b!"\n") (by decide) (by decide) (by decide) (by decide) (by decide) (by decide) ⟨by decide, by decide⟩ ⟨by decide, by decide⟩)
        .nil (stops_dec (by decide)) (by decide) (fun r => .str (t := b!"new") (strText_plain (by decide))) .nil (lacks_dec (by decide)).noHeader (noOpen_dec (by decide)) (Break.between ⟨by decide, by decide⟩)
  outside := lacks_dec (by decide)
  start := by
    intro a b h
    have := (List.append_inj' (show b!"%PDF-1.4" ++ b!"\n" = a ++ [b] from h) rfl).2
    cases this
    unfold IsDec; decide
  noOpen := noOpen_dec (by decide)

example : (∀ p ∈ twoVersions, NotXref p.obj) ∧ Lacks b!"xref" (b!"%PDF-1.4\n" ++ (joined twoVersions ++ b!"trailer <</Root 2 0 R>>")) ∧
    (lastWith twoVersions 1).map (·.obj) = some ⟨1, 0, .str b!"new", none⟩ ∧ lastWith twoVersions 3 = none := by
  refine ⟨?_, lacks_dec (by decide), by decide, by decide⟩
  intro p hp
  simp only [twoVersions, List.mem_cons, List.not_mem_nil, or_false] at hp
  rcases hp with rfl | rfl | rfl
  · rintro d ⟨⟩
  · rintro d ⟨⟩; decide
  · rintro d ⟨⟩

/-- an object that prints as a text of itself; its data ends in a carriage return, which is lost -/
def printable : List IndObj := [⟨1, 0, .dict [(b!"Root", .ref 2 0)], some b!"0 1 m\r"⟩, ⟨2, 0, .arr [.kw b!"null", .str b!"%(a)"], none⟩]

theorem printable_meets : (∀ o ∈ printable, Reprintable o) ∧ (∀ o ∈ printable, NotXref o) ∧ Lacks b!"xref" (printed printable) ∧
    printable.map reread ≠ printable := by
  refine ⟨?_, ?_, lacks_dec (by decide +kernel), by decide⟩
  · intro o ho
    simp only [printable, List.mem_cons, List.not_mem_nil, or_false] at ho
    rcases ho with rfl | rfl
    · refine ⟨by decide, by decide, .dict (.cons (nameText_plain _ (by decide)) (.ref (n := 2) (g := 0) (by decide) (by decide)) .nil) (by decide), (lacks_dec (by decide +kernel)).noHeader, ?_⟩
      rintro d ⟨⟩
      exact ⟨_, rfl, by decide, by decide, (fun a b h => by cases h), by decide +kernel, (lacks_dec (by decide)).noHeader, lacks_dec (by decide)⟩
    · refine ⟨by decide, by decide, .arr (.cons (.kw (by decide) (by decide) (by decide) (by decide) (by decide) (by decide) (by decide))
        (.cons (.str ?_) .nil)), (lacks_dec (by decide +kernel)).noHeader, by rintro d ⟨⟩⟩
      exact .plain (by decide) (by decide) (by decide) (.parens (v := b!"a") (t := b!"a") (v' := []) (t' := []) (e := []) (e' := []) (strText_plain (by decide)) .nil)
  · intro o ho
    simp only [printable, List.mem_cons, List.not_mem_nil, or_false] at ho
    rcases ho with rfl | rfl
    · rintro d ⟨⟩; decide
    · rintro d ⟨⟩

/-- objects of which every printed form is a text of them -/
example : ∀ p ∈ [((1 : Int), (⟨1, 0, .kw b!"true", none⟩ : IndObj)), (2, ⟨2, 0, .str b!"a", none⟩)], ∀ x, Reordered p.2.value x → Reprintable (withValue p.2 x) ∧ NotXref (withValue p.2 x) := by
  intro p hp
  simp only [List.mem_cons, List.not_mem_nil, or_false] at hp
  rcases hp with rfl | rfl
  · rintro x ⟨⟩
    exact ⟨⟨by decide, by decide, .kw (by decide) (by decide) (by decide) (by decide) (by decide) (by decide) (by decide), (lacks_dec (by decide)).noHeader, by rintro d ⟨⟩⟩, by rintro d ⟨⟩⟩
  · rintro x ⟨⟩
    exact ⟨⟨by decide, by decide, .str (strText_plain (by decide)), (lacks_dec (by decide)).noHeader, by rintro d ⟨⟩⟩, by rintro d ⟨⟩⟩

/-- a stream with a filter, and the same with the decoded data as it is printed -/
def filtered : Part := ⟨⟨1, 0, .dict [(b!"Filter", .name b!"ASCIIHexDecode")], some b!"A"⟩, [], b!"1 0 obj\n<</Filter /ASCIIHexDecode>>\nstream\n41\nendstream\nendobj\n\n"⟩

/-- what its printed form is read as -/
def filteredAgain : Part := ⟨⟨1, 0, .dict [(b!"Filter", .name b!"ASCIIHexDecode")], some [160]⟩, [], filtered.obj.toBytes ++ b!"\n"⟩

theorem filtered_text (cd : Codecs) {d v : Bytes} (hf : ∀ r, FirstMark d r) (hc : Chop d v) {out : Bytes} (ho : ∀ rs, decodeAll cd rs [b!"ASCIIHexDecode"] [] (some v) = pure (some out))
    (hl : hasWord b!"obj" (b!"\n" ++ (b!"<</Filter /ASCIIHexDecode>>" ++ (b!"\n" ++ (b!"stream" ++ (b!"\n" ++ (d ++ (endMark ++ b!"\n"))))))) = false)
    (hn : openEnd (b!"\n" ++ (b!"<</Filter /ASCIIHexDecode>>" ++ (b!"\n" ++ (b!"stream" ++ (b!"\n" ++ (d ++ (endMark ++ b!"\n"))))))) = false) :
    ObjectText cd ⟨1, 0, .dict [(b!"Filter", .name b!"ASCIIHexDecode")], some out⟩ [] (b!"1 0 obj" ++ ((b!"\n" ++ (b!"<</Filter /ASCIIHexDecode>>" ++ (b!"\n" ++ (b!"stream" ++ (b!"\n" ++ (d ++ (endMark ++ b!"\n"))))))) ++ (b!"endobj" ++ b!"\n\n"))) :=
  ObjectText.stream (cd := cd) (h := b!"1 0 obj") (w := b!"\n") (t := b!"<</Filter /ASCIIHexDecode>>") (w' := b!"\n") (eol := b!"\n") (y := b!"\n") (u := b!"\n\n")
    (.mk (ds := [1]) (gs := [0]) (w := b!" ") (w' := b!" ") (by decide) (by decide) (by decide) (by decide) (by decide) (by decide) ⟨by decide, by decide⟩ ⟨by decide, by decide⟩)
    (.ws (by decide) .nil) (stops_dec (by decide)) (by decide)
    (fun r => .dict (es := [(b!"Filter", .name b!"ASCIIHexDecode")]) (t := b!"/Filter /ASCIIHexDecode>>")
      (.cons (w := []) (kt := b!"Filter") (w' := b!" ") (t := b!"/ASCIIHexDecode") (u := b!">>") (e := []) (e' := []) (e'' := []) .nil (nameText_plain _ (by decide)) (.ws (by decide) .nil) (by rintro b t ⟨⟩; decide)
        (.name (t := b!"ASCIIHexDecode") (nameText_plain _ (by decide)) (by rintro b t ⟨⟩; decide)) (.nil (w := []) .nil)))
    (.ws (by decide) .nil) (fun r => .inl rfl) hf hc (.ws (by decide) .nil) (by decide) (.one rfl) (.none rfl) (fun a b h => by cases h) (by decide) ho
    (lacks_dec hl).noHeader (noOpen_dec hn) (Break.between ⟨by decide, by decide⟩)

theorem firstMark_lacks {d : Bytes} (h : 101 ∉ d) (r : Bytes) : FirstMark d r := by
  intro d' r' e
  rcases List.append_eq_append_iff.1 e with ⟨a, rfl, -⟩ | ⟨a, rfl, e2⟩
  · simp
  · cases a with
    | nil => simp
    | cons c a =>
      obtain ⟨rfl, -⟩ := List.cons.inj e2
      exact absurd (by simp) h

/-- **C73** is false for streams with filters: raw.pdf has the decoded data with the dictionary of the encoded data,
so that the data is decoded once more when raw.pdf is read. -/
theorem C73_false (ext : Ext) (verbose : Option Bool) (ord : Order) (f fx : Nat) (pw : Bytes) :
    ∃ (file : Bytes) (o o' : IndObj) (ls ls' : LS), load ⟨file, ext, verbose⟩ ord (f + 1) fx pw LS.init = .ok (none, ls) ∧
      (∀ f' s, ∃ s', getObject (ls.env ⟨file, ext, verbose⟩) f' 1 s = .ok (o, s')) ∧
      load ⟨o.toBytes ++ b!"\n", ext, verbose⟩ ord (f + 1) fx pw LS.init = .ok (none, ls') ∧
      (∀ f' s, ∃ s', getObject (ls'.env ⟨o.toBytes ++ b!"\n", ext, verbose⟩) f' 1 s = .ok (o', s')) ∧ o.stream ≠ o'.stream := by
  have m1 : Made ext.toCodecs [] [filtered] [] := ⟨by
    intro p hp
    rw [List.mem_singleton] at hp
    subst hp
    exact filtered_text _ (d := b!"41\n") (v := b!"41") (firstMark_lacks (by decide)) (.lf b!"41" (by decide)) (out := b!"A") (fun rs => rfl) (by decide) (by decide),
    lacks_nil (by decide), fun a b h => by simp at h, noOpen_nil⟩
  have m2 : Made ext.toCodecs [] [filteredAgain] [] := ⟨by
    intro p hp
    rw [List.mem_singleton] at hp
    subst hp
    exact filtered_text _ (d := b!"A\n") (v := b!"A") (firstMark_lacks (by decide)) (.lf b!"A" (by decide)) (out := [160]) (fun rs => rfl) (by decide) (by decide),
    lacks_nil (by decide), fun a b h => by simp at h, noOpen_nil⟩
  have x : ∀ p ∈ [filtered, filteredAgain], NotXref p.obj := by
    intro p hp
    simp only [List.mem_cons, List.not_mem_nil, or_false] at hp
    rcases hp with rfl | rfl <;> (rintro d ⟨⟩; decide)
  have e1 : ([] : Bytes) ++ (joined [filtered] ++ []) = filtered.text := by simp [joined]
  have e2 : ([] : Bytes) ++ (joined [filteredAgain] ++ []) = filtered.obj.toBytes ++ b!"\n" := by simp [joined, filteredAgain]
  obtain ⟨ls, h1, -, h2, -⟩ := C72_read m1 (fun p hp => x p (by simp at hp; simp [hp])) (by rw [e1]; exact lacks_dec (by decide)) verbose ord f fx pw
  obtain ⟨ls', h3, -, h4, -⟩ := C72_read m2 (fun p hp => x p (by simp at hp; simp [hp])) (by rw [e2]; exact lacks_dec (by decide +kernel)) verbose ord f fx pw
  rw [e1] at h1 h2
  rw [e2] at h3 h4
  refine ⟨filtered.text, filtered.obj, filteredAgain.obj, ls, ls', h1, fun f' s => ?_, h3, fun f' s => ?_, by decide⟩
  · obtain ⟨s', k, -⟩ := h2 1 filtered rfl f' s
    exact ⟨s', k⟩
  · obtain ⟨s', k, -⟩ := h4 1 filteredAgain rfl f' s
    exact ⟨s', k⟩

end Pdf.Props
