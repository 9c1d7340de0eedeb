import Verif.Lemmas.RunsLoad
import Verif.Lemmas.Stream
/-!
A check that a given file satisfies the hypotheses of C51, used for the example beside it.
-/

namespace Pdf
open Spec St

/-- a dictionary without any of the keys `TameDict` speaks about, apart from an array of kids, a type, a filter and a /U -/
def gentleDict (d : Dict) : Bool :=
  (d.get? b!"DecodeParms").isNone && (d.get? b!"W").isNone && (d.get? b!"Predictor").isNone && (d.get? b!"CFM").isNone &&
  (match d.get? b!"Type" with | none => true | some (.name _) => true | _ => false) &&
  (match d.get? b!"Filter" with | none => true | some (.name _) => true | _ => false) &&
  (match d.get? b!"U" with | none => true | some (.str b) => decide (8 < b.length) | _ => false) &&
  (match d.get? b!"Kids" with | some (.ref ..) => false | _ => true)

theorem gentleDict_tame {d : Dict} (h : gentleDict d = true) : TameDict d := by
  simp only [gentleDict, Bool.and_eq_true, Option.isNone_iff_eq_none] at h
  obtain ⟨⟨⟨⟨⟨⟨⟨h3, h4⟩, h5⟩, h1⟩, h6⟩, h2⟩, h8⟩, h7⟩ := h
  refine ⟨?_, ?_, fun n g h => (by rw [h4] at h; cases h), fun l h => (by rw [h4] at h; cases h), ?_, ?_, fun h => absurd h1 h⟩
  · intro k hk o ho m hm
    simp only [List.mem_cons, List.not_mem_nil, or_false] at hk
    rcases hk with rfl | rfl | rfl
    · rw [ho] at h6
      cases o <;> cases h6
      cases hm
    · rw [ho] at h2
      cases o <;> cases h2
      cases hm
    · rw [ho] at h3; cases h3
  · intro n g hh
    rw [hh] at h7
    cases h7
  · intro hp
    rw [intOr, h5] at hp
    cases hp
  · intro _ o ho
    rw [ho] at h8
    cases o <;> first | cases h8 | skip
    exact ⟨by rintro n g ⟨⟩, by rintro b ⟨⟩; exact of_decide_eq_true h8⟩

/-- such a dictionary, without encryption and filters -/
def plainDict (d : Dict) : Bool := gentleDict d && (d.get? b!"Filter").isNone && (d.get? b!"Encrypt").isNone

theorem plainDict_filter {d : Dict} (h : plainDict d = true) : d.get? b!"Filter" = none := by
  simp only [plainDict, Bool.and_eq_true, Option.isNone_iff_eq_none] at h
  exact h.1.2

theorem plainDict_encrypt {d : Dict} (h : plainDict d = true) : d.get? b!"Encrypt" = none := by
  simp only [plainDict, Bool.and_eq_true, Option.isNone_iff_eq_none] at h
  exact h.2

theorem plainDict_tame {d : Dict} (h : plainDict d = true) : TameDict d := by
  simp only [plainDict, Bool.and_eq_true, Option.isNone_iff_eq_none] at h
  exact gentleDict_tame h.1.1

/-- every dictionary at any position passes the test -/
def allDicts (c : Dict → Bool) (file : Bytes) : Bool := (List.range (file.length + 1)).all fun i =>
  match lObj noDec (objFuel file) (file.drop i) with
  | .ok r => match r.val.1 with | .dict d => c d | _ => true
  | _ => true

/-- every dictionary at any position is plain -/
abbrev allPlain (file : Bytes) : Bool := allDicts plainDict file

theorem drop_in_range (file : Bytes) (i : Nat) : ∃ j ∈ List.range (file.length + 1), file.drop j = file.drop i := by
  by_cases h : i ≤ file.length
  · exact ⟨i, List.mem_range.2 (by omega), rfl⟩
  · exact ⟨file.length, List.mem_range.2 (by omega), by rw [List.drop_length, List.drop_eq_nil_of_le (by omega)]⟩

theorem plain_of_all {c : Dict → Bool} {file : Bytes} (h : allDicts c file = true) {s d err s'} (hr : readObj file noDec s = .ok ((.dict d, err), s')) : c d = true := by
  obtain ⟨j, hj, e⟩ := drop_in_range file s.pos
  have hc := List.all_eq_true.1 h j hj
  have hs := (readObject_spec file noDec (objFuel file)).1 s
  rw [show readObject file noDec (objFuel file) s = _ from hr] at hs
  rw [rest, ← e] at hs
  cases hl : lObj noDec (objFuel file) (file.drop j) with
  | ok r =>
    rw [hl] at hs hc
    have : r.val = (.dict d, err) := hs.1.symm
    dsimp only at hc
    rw [this] at hc
    exact hc
  | panic w => rw [hl] at hs; cases hs
  | oof => rw [hl] at hs; cases hs

theorem tame_of_all {file : Bytes} (h : allPlain file = true) : Tame file :=
  fun _ _ _ _ hr => plainDict_tame (plain_of_all h hr)

theorem tame_of_gentle {file : Bytes} (h : allDicts gentleDict file = true) : Tame file :=
  fun _ _ _ _ hr => gentleDict_tame (plain_of_all h hr)

theorem unencrypted_of_all {file : Bytes} (h : allPlain file = true) : Unencrypted file :=
  fun _ _ _ _ hr => plainDict_encrypt (plain_of_all h hr)

/-! ### The bytes of a stream come from the file -/

theorem mem_rest_drop {file : Bytes} {s s' : PS} {n : Nat} (h : s'.pos = s.pos + n) {b : UInt8} (hb : b ∈ rest file s') : b ∈ rest file s := by
  rw [rest_eq h] at hb
  exact List.mem_of_mem_drop hb

theorem streamLoop_mem {file : Bytes} (f : Nat) : ∀ (s : PS) (win acc : Bytes) (b : UInt8), b ∈ (streamLoop file f s win acc).1 → b ∈ rest file s ∨ b ∈ win ∨ b ∈ acc := by
  induction f with
  | zero => intro s win acc b hb; exact .inr (.inr hb)
  | succ f ih =>
    intro s win acc b hb
    rw [streamLoop.eq_def] at hb
    simp only at hb
    split at hb
    · refine .inr (.inr ?_)
      simp only [trimEol] at hb
      split at hb
      · split at hb
        · exact List.dropLast_subset _ (List.dropLast_subset _ hb)
        · exact List.dropLast_subset _ hb
      · split at hb
        · exact List.dropLast_subset _ hb
        · exact hb
    · cases win with
      | nil => exact .inr (.inr hb)
      | cons c win =>
        cases hr : rest file s with
        | nil =>
          rw [readByte_nil hr] at hb
          simp only [List.mem_append, List.mem_singleton] at hb
          grind
        | cons e t =>
          rw [readByte_cons hr] at hb
          rcases ih _ _ _ _ hb with h | h | h
          · rw [rest_adv hr] at h; exact .inl (List.mem_cons_of_mem _ h)
          · rcases List.mem_append.1 h with h | h
            · exact .inr (.inl (List.mem_cons_of_mem _ h))
            · exact .inl (List.mem_cons.2 (.inl (List.mem_singleton.1 h)))
          · rcases List.mem_append.1 h with h | h
            · exact .inr (.inr h)
            · exact .inr (.inl (List.mem_cons.2 (.inl (List.mem_singleton.1 h))))

theorem readN_mem {file : Bytes} {s : PS} {n : Nat} : (∀ b ∈ (readN file s n).1, b ∈ rest file s) ∧ ∀ b ∈ rest file (readN file s n).2, b ∈ rest file s := by
  rw [readN]
  split
  · exact ⟨fun b hb => List.mem_of_mem_take hb, fun b hb => mem_rest_drop (n := min n (s.lim - s.pos)) rfl hb⟩
  · split
    · exact ⟨fun b hb => List.mem_of_mem_take hb, fun b hb => mem_rest_drop (n := min n (min (s.pos + bufSize) file.length - s.pos)) rfl hb⟩
    · exact ⟨by simp, fun b hb => hb⟩

theorem readStreamRaw_mem {file : Bytes} {s : PS} {raw : Bytes} (h : (readStreamRaw file s).1 = some raw) : ∀ b ∈ raw, b ∈ rest file s := by
  have hs := skip_spec file (file.length + 1) s (by have := rest_length_le file s; omega)
  rw [readStreamRaw] at h
  cases he : eolSkip (rest file s) with
  | none =>
    rw [he] at hs
    obtain ⟨s', e1, -⟩ := hs
    rw [e1] at h
    cases h
  | some n =>
    rw [he] at hs
    obtain ⟨s', e1, e2, -⟩ := hs
    rw [e1] at h
    intro b hb
    simp only [Option.some.injEq] at h
    rw [← h] at hb
    refine mem_rest_drop e2.pos ?_
    rcases streamLoop_mem _ _ _ _ _ hb with h | h | h
    · exact readN_mem.2 _ h
    · exact readN_mem.1 _ h
    · cases h

/-! ### A map without hexadecimal strings -/

theorem readHexRaw_none {d : Bytes} (h : ch%'<' ∉ d) (s : PS) : (readHexRaw d s).1 = [] := by
  rw [(readHexRaw_spec d s).1, lHex]
  simp only [List.nil_append]
  split
  · rfl
  · rename_i b t hd
    rw [if_pos ?_]
    rw [bne_iff_ne]
    rintro rfl
    have : ch%'<' ∈ (rest d s).drop (skipWs false (rest d s)) := by rw [hd]; exact List.mem_cons_self ..
    exact h (List.mem_of_mem_drop (List.mem_of_mem_drop this))

theorem loads_of_none {d : Bytes} (h : ch%'<' ∉ d) : ∃ font, newFont d = .ok font :=
  newFont_runs d fun s => by rw [readHexRaw_none h]; decide

/-- no hexadecimal string after any `stream` keyword -/
def streamsPlain (file : Bytes) : Bool := (List.range (file.length + 1)).all fun i =>
  if (lKeyword (file.drop i)).val = b!"stream" then ((file.drop i).drop (lKeyword (file.drop i)).n).all (· != ch%'<') else true

theorem streams_of_all {file : Bytes} (h : streamsPlain file = true) {s : PS} (hk : (readKeyword file s).1 = b!"stream") :
    ch%'<' ∉ rest file (readKeyword file s).2 := by
  obtain ⟨j, hj, e⟩ := drop_in_range file s.pos
  have hc := List.all_eq_true.1 h j hj
  obtain ⟨h1, h2⟩ := readKeyword_spec file s
  rw [h1] at hk
  rw [rest_eq h2.pos]
  rw [rest] at hk ⊢
  rw [e] at hc
  simp only [hk, if_true] at hc
  intro hm
  have := List.all_eq_true.1 hc _ hm
  simp at this

theorem streams_load {file : Bytes} (h1 : allPlain file = true) (h2 : streamsPlain file = true) (ext : Ext) (verbose : Option Bool) :
    ∀ xref f n s o s', getObject ⟨file, xref, newSecurityHandler, ext, verbose⟩ f n s = .ok (o, s') → ∀ d, o.stream = some d → ∃ font, newFont d = .ok font := by
  intro xref f n s o s' h d hd
  rw [getObject, getObjectF] at h
  cases he : Assoc.get? xref n with
  | none => simp only [he] at h; cases h; cases hd
  | some e =>
    simp only [he] at h
    by_cases ht : e.typ = 1
    · rw [if_pos ht] at h
      have hcf : (if e.isEncrypted = true then newSecurityHandler.stringFilter else CryptFilter.none) = .none := by split <;> rfl
      obtain ⟨v, err, t, hr, hv⟩ := readObj_tame (tame_of_all h1).file (readObjectHeader file (seek s e.offset)).2
      rw [bind_of_ok (show seekM e.offset s = .ok ((), seek s e.offset) from rfl),
        bind_of_ok (show (St.ofFun (readObjectHeader file) : M _) (seek s e.offset) = .ok (_, (readObjectHeader file (seek s e.offset)).2) from rfl),
        hcf, decrypt_none, bind_of_ok hr] at h
      obtain ⟨st, u, hg, h⟩ := St.bind_ok h
      cases h
      replace hd : st = some d := hd
      subst hd
      rw [getStreamF, St.ofFun_bind] at hg
      by_cases hk : (readKeyword file t).1 = b!"stream"
      · rw [if_pos hk] at hg
        have hfil : ((Obj.asDict? v).getD []).get? b!"Filter" = none := by
          cases v with
          | dict d => exact plainDict_filter (plain_of_all h1 hr)
          | _ => rfl
        have hdict : TameObj (Unencrypted file) (.dict ((Obj.asDict? v).getD [])) := by
          cases v with
          | dict d => exact hv
          | _ => exact AllDicts.ofDict tame_nil (by intro p hp; cases hp)
        have hfl : ∀ rs s, filterList rs ((Obj.asDict? v).getD []) s = .ok ([], s) := by
          intro rs s
          have hg : Dict.getObject rs ((Obj.asDict? v).getD []) b!"Filter" = pure none := by
            rw [getObject_plain rs (by intro o ho; rw [hfil] at ho; cases ho), hfil]
          simp only [filterList, Dict.getArray, Dict.getName, hg]
          rfl
        obtain ⟨pl, hpl, hp⟩ := parmsList_ok hdict (readKeyword file t).2
        obtain ⟨cf, fl', pl', hsc, -, -⟩ := streamCrypt_ok newSecurityHandler (b := e.isEncrypted) hdict (fl := []) (by intro o ho; cases ho) hp (readKeyword file t).2
        have hfl' : cf = .none ∧ fl' = [] := by
          have := hsc (fun n s => .ok (newIndObj n, s))
          unfold streamCrypt at this
          split at this
          · cases this; exact ⟨rfl, rfl⟩
          · obtain ⟨a, b, -, this⟩ := St.bind_ok this
            have hcf : (if a = some b!"EmbeddedFile" then newSecurityHandler.fileFilter else newSecurityHandler.streamFilter) = .none := by split <;> rfl
            simp only [List.length_nil, if_true] at this
            rw [hcf] at this
            have h3 := congrArg (fun r : Res ((CryptFilter × List Obj × List Obj) × PS) => match r with | .ok p => p.1 | _ => (.none, [], [])) this
            exact ⟨(congrArg Prod.fst h3).symm, (congrArg (fun p => p.2.1) h3).symm⟩
        obtain ⟨rfl, rfl⟩ := hfl'
        rw [bind_of_ok (hfl _ _), bind_of_ok (hpl _), bind_of_ok (hsc _)] at hg
        simp only [decrypt_none] at hg
        rw [readStream, St.ofFun_bind] at hg
        cases hraw : (readStreamRaw file (readKeyword file t).2).1 with
        | none =>
          rw [hraw] at hg
          cases hg
          exact loads_of_none (by simp)
        | some raw =>
          rw [hraw] at hg
          simp only at hg
          rw [bind_of_ok (show (St.ofRes (noDec raw) : M _) _ = .ok (raw, _) from rfl)] at hg
          cases hg
          exact loads_of_none fun hm => streams_of_all h2 hk (readStreamRaw_mem hraw _ hm)
      · rw [if_neg hk] at hg
        cases hg
    · rw [if_neg ht] at h; cases h; cases hd

theorem mapsEnd_of_all {file : Bytes} (h1 : allPlain file = true) (h2 : streamsPlain file = true) {ext : Ext} (hcd : Moderate ext.toCodecs) (v : Bool) (hlen : file.length < 2 ^ 63) (pw : Bytes) :
    MapsEnd file ext (some v) pw := by
  intro ord f fx ls hl
  have hsh := load_shallow (cfg := ⟨file, ext, some v⟩) hcd (tame_of_all h1).file (by simp) hl hlen (unencrypted_of_all h1)
  have := streams_load h1 h2 ext (some v) ls.xref
  rw [← hsh] at this
  exact this

/-- no `stream` keyword -/
def noStreams (file : Bytes) : Bool := (List.range (file.length + 1)).all fun i => (lKeyword (file.drop i)).val != b!"stream"

theorem mapsEnd_of_none {file : Bytes} (h : noStreams file = true) (ext : Ext) (verbose : Option Bool) (pw : Bytes) : MapsEnd file ext verbose pw := by
  intro ord f fx ls _ f n s o s' h' d hd
  rw [getObject, getObjectF] at h'
  cases he : (ls.env ⟨file, ext, verbose⟩).xref.get? n with
  | none => simp only [he] at h'; cases h'; cases hd
  | some e =>
    simp only [he] at h'
    split at h'
    · obtain ⟨_, _, -, h'⟩ := St.bind_ok h'
      obtain ⟨_, _, -, h'⟩ := St.bind_ok h'
      obtain ⟨⟨v, _⟩, t, -, h'⟩ := St.bind_ok h'
      obtain ⟨st, u, hg, h'⟩ := St.bind_ok h'
      cases h'
      replace hd : st = some d := hd
      subst hd
      rw [getStreamF, St.ofFun_bind] at hg
      have hk : (readKeyword file t).1 ≠ b!"stream" := by
        rw [(readKeyword_spec file t).1, rest]
        obtain ⟨j, hj, e⟩ := drop_in_range file t.pos
        have := List.all_eq_true.1 h j hj
        rw [e] at this
        simpa using this
      rw [show (ls.env ⟨file, ext, verbose⟩).file = file from rfl, if_neg hk] at hg
      cases hg
    · cases h'; cases hd

end Pdf
