import Verif.Props.Print
import Verif.Props.Report
import Verif.Lemmas.Keys
/-!
C08 and C71: raw.pdf.
-/

namespace Pdf.Props
open Pdf Spec St

/-! ### The order of the entries of dictionaries -/

theorem reorderedEntries_keys : ∀ {d d' : List (Bytes × Obj)}, ReorderedEntries d d' → d.map (·.1) = d'.map (·.1)
  | _, _, .nil => rfl
  | _, _, .cons _ h => by rw [List.map_cons, List.map_cons, reorderedEntries_keys h]

theorem plainDict_iff {d : List (Bytes × Obj)} : PlainDict d ↔ ∀ p ∈ d, NameText p.1 p.1 [] ∧ Plain p.2 := by
  induction d with
  | nil => exact ⟨(fun _ _ h => by cases h), fun _ => .nil⟩
  | cons p t ih =>
    constructor
    · intro h
      cases h with
      | cons h1 h2 h3 =>
        intro q hq
        rcases List.mem_cons.1 hq with rfl | hq
        · exact ⟨h1, h2⟩
        · exact ih.1 h3 q hq
    · intro h
      exact .cons (h p (by simp)).1 (h p (by simp)).2 (ih.2 fun q hq => h q (by simp [hq]))

mutual
theorem plain_reordered : ∀ {o v : Obj}, Reordered o v → Plain o → Plain v
  | _, _, .same _, hp => hp
  | _, _, .arr h, hp => by
    cases hp with
    | arr hp => exact .arr (plainArr_reordered h hp)
  | _, _, .dict h hd, hp => by
    cases hp with
    | dict hp hn =>
      refine .dict (plainDict_iff.2 fun p hm => plainDict_iff.1 (plainDict_reordered h hp) p (hd.mem_iff.2 hm)) ?_
      rw [reorderedEntries_keys h] at hn
      exact (hd.map _).nodup_iff.1 hn
theorem plainArr_reordered : ∀ {l l' : List Obj}, ReorderedList l l' → PlainArr l → PlainArr l'
  | _, _, .nil, _ => .nil
  | _, _, .cons h t, hp => by
    cases hp with
    | cons h1 h2 => exact .cons (plain_reordered h h1) (plainArr_reordered t h2)
theorem plainDict_reordered : ∀ {d d' : List (Bytes × Obj)}, ReorderedEntries d d' → PlainDict d → PlainDict d'
  | _, _, .nil, _ => .nil
  | _, _, .cons h t, hp => by
    cases hp with
    | cons h1 h2 h3 => exact .cons h1 (plain_reordered h h2) (plainDict_reordered t h3)
end

/-- **C08, partial** Whatever the order in which the entries of its dictionaries are printed, an indirect
object with a plain value is read back from its text as that value up to the order of entries. Missing, as
before: values outside `Plain`. -/
theorem C08_order_partial {o : IndObj} {v : Obj} (h : Plain o.value) (hv : Reordered o.value v) (hn : 0 ≤ o.number ∧ o.number < 2 ^ 63)
    (hg : 0 ≤ o.generation ∧ o.generation < 2 ^ 63) (file r : Bytes) (hin : file = { o with value := v }.toBytes ++ r) :
    ∃ s s1 s2 s', readInt file PS.init = ((o.number, true), s) ∧ readInt file s = ((o.generation, true), s1) ∧
      readKeyword file s1 = (b!"obj", s2) ∧ readObj file noDec s2 = .ok ((v, .nil), s') ∧ s'.log = [] :=
  C08_indirect_partial (o := { o with value := v }) (plain_reordered hv h) hn hg file r hin

/-- `<</K 3 0 R/L true>>`, printed the other way round -/
example : Reordered (.dict [(b!"K", .ref (3 : Nat) (0 : Nat)), (b!"L", .kw b!"true")]) (.dict [(b!"L", .kw b!"true"), (b!"K", .ref (3 : Nat) (0 : Nat))]) :=
  .dict (.cons (.same _) (.cons (.same _) .nil)) (.swap _ _ _)
example : Plain (.dict [(b!"K", .ref (3 : Nat) (0 : Nat)), (b!"L", .kw b!"true")]) :=
  .dict (.cons (.plain (by decide) (by decide) .nil) (.ref (by decide) (by decide)) <|
      .cons (.plain (by decide) (by decide) .nil) (.kw (by decide) (by decide) (by decide) (by decide) (by decide) (by decide) (by decide)) .nil) (by decide)

/-! ### C71 -/

theorem rawObj_none {ws : List Write} (h : ∀ w ∈ ws, w.kind = .errors ∨ w.kind ≠ .raw) : ws.filterMap rawObj = [] ∧ ∀ w ∈ ws, Faithful w := by
  constructor
  · rw [List.filterMap_eq_nil_iff]
    intro w hw
    have := h w hw
    cases w <;> simp_all [rawObj, Write.kind]
  · intro w hw
    have := h w hw
    cases w <;> simp_all [Faithful, Write.kind]

/-- What one entry prints. -/
def PrintsEntry (env : Env) (f : Nat) (x : Int × XrefEntry) (ws : List Write) : Prop :=
  (∀ w ∈ ws, Faithful w) ∧ if x.2.typ = 1 then ∃ s s' o, getObject env f x.1 s = .ok (o, s') ∧ ws.filterMap rawObj = [o] else ws.filterMap rawObj = []

theorem extractEntry_raw (env : Env) (f ft : Nat) (x : Int × XrefEntry) : Post (extractEntry env f ft x) fun _ ws => PrintsEntry env f x ws := by
  have hrs : ∀ n, LogFree (resolver env f n) := resolver_lf env f
  rw [extractEntry]
  by_cases h : x.2.typ = 1
  · simp only [if_pos h]
    refine Post.bind (Post.ofRes (Q := fun _ ws => ws = []) fun _ _ => rfl) fun _ ws0 hw0 => ?_
    refine Post.bind (P := fun o ws => (∀ w ∈ ws, w.kind = .errors ∨ w.kind ≠ .raw) ∧ ∃ s s', getObject env f x.1 s = .ok (o, s'))
      ?_ fun o ws ⟨hq, s, s', hr⟩ => ?_
    · intro s a s' hr
      obtain ⟨ws, h1, h2, -⟩ := Post.liftX (getObject_lf env f x.1) s a s' hr
      obtain ⟨-, -, h3⟩ := post_lift_run (getObject_lf env f x.1) s a s' hr
      exact ⟨ws, h1, fun w hw => .inl (h2 w hw), h3⟩
    have h1 : Only (fun k => k ≠ .raw) (objectExtract env.ext (resolver env f) ft o) := (only_xcl env.ext hrs _).objectExtract (fun k hk => hk) ft o
    refine Post.bind h1 fun _ vs hv => (Post.putRaw o).mono fun _ us ⟨w, hw, hu⟩ => ?_
    obtain ⟨a1, a2⟩ := rawObj_none hq
    obtain ⟨b1, b2⟩ := rawObj_none hv
    rw [PrintsEntry, if_pos h, hw0, hu]
    simp only [List.nil_append, List.filterMap_append, a1, b1]
    refine ⟨fun v hm => ?_, s, s', o, hr, rfl⟩
    rcases List.mem_append.1 hm with hm | hm
    · exact a2 v hm
    rcases List.mem_append.1 hm with hm | hm
    · exact b2 v hm
    · rw [List.mem_singleton.1 hm]; exact hw
  · simp only [if_neg h]
    refine Post.pure ?_
    rw [PrintsEntry, if_neg h]
    exact ⟨(fun w hw => by cases hw), rfl⟩

/-- What a list of entries prints. -/
def PrintsAll (env : Env) (f : Nat) (l : List (Int × XrefEntry)) (ws : List Write) : Prop :=
  (∀ w ∈ ws, Faithful w) ∧ ∃ ps : List (Int × IndObj), ps.map (·.1) = inUse l ∧ (∀ p ∈ ps, ∃ s s', getObject env f p.1 s = .ok (p.2, s')) ∧
    ws.filterMap rawObj = ps.map (·.2)

theorem runEntries_raw (env : Env) (f ft : Nat) : ∀ l : List (Int × XrefEntry), Post (runAll (l.map (extractEntry env f ft))) fun _ ws => PrintsAll env f l ws := by
  intro l
  induction l with
  | nil => exact Post.pure ⟨(fun w hw => by cases hw), [], rfl, (fun p hp => by cases hp), rfl⟩
  | cons x t ih =>
    refine Post.bind (extractEntry_raw env f ft x) fun _ ws ⟨h1, h2⟩ => ih.mono fun _ vs ⟨h3, ps, h4, h5, h6⟩ => ?_
    refine ⟨fun w hw => (List.mem_append.1 hw).elim (h1 w) (h3 w), ?_⟩
    rw [List.filterMap_append, h6]
    by_cases h : x.2.typ = 1
    · rw [if_pos h] at h2
      obtain ⟨s, s', o, h7, h8⟩ := h2
      refine ⟨(x.1, o) :: ps, ?_, fun p hp => ?_, by rw [h8]; rfl⟩
      · rw [inUse, List.filter_cons_of_pos (by simpa using h), List.map_cons, List.map_cons, h4]; rfl
      · rcases List.mem_cons.1 hp with rfl | hp
        · exact ⟨s, s', h7⟩
        · exact h5 p hp
    · rw [if_neg h] at h2
      refine ⟨ps, ?_, h5, by rw [h2]; rfl⟩
      rw [inUse, List.filter_cons_of_neg (by simpa using h), h4]; rfl

/-- **C71** When `Parse` returns without an error, raw.pdf is the text of the objects that the numbers in
use were read as, each once, in some order, with the entries of their dictionaries in some order; and
nothing else. -/
theorem C71_raw {sys : Sys} {ext : Ext} {verbose : Option Bool} {f fx ft : Nat} {pw : Bytes} {r : ParseResult} (hr : parse sys ext verbose f fx ft pw = r)
    (h : r.outcome = .returned none) :
    ∃ file ls, sys.input = some file ∧ load ⟨file, ext, verbose⟩ sys.order f fx pw LS.init = .ok (none, ls) ∧
      ∃ ps : List (Int × IndObj), (ps.map (·.1)).Nodup ∧ (∀ n, n ∈ ps.map (·.1) ↔ ∃ e, ls.xref.get? n = some e ∧ e.typ = 1) ∧ (∀ p ∈ ps, ∃ s s', getObject (ls.env ⟨file, ext, verbose⟩) f p.1 s = .ok (p.2, s')) ∧
        Printed (ps.map (·.2)) r.out.raw := by
  subst hr
  obtain ⟨file, ls, xs, h1, h2, h3, h4, -⟩ := parse_run h
  refine ⟨file, ls, h1, h2, ?_⟩
  have key : Post (extractAll (ls.env ⟨file, ext, verbose⟩) f ft ls.xref) fun _ ws => ∃ l, l.Perm ls.xref ∧ PrintsAll (ls.env ⟨file, ext, verbose⟩) f l ws := by
    rw [extractAll]
    refine (Post.shuffle _).bind fun l ws ⟨hw, hl⟩ => ?_
    rw [hw]
    exact (runEntries_raw _ f ft l).mono fun _ vs hv => ⟨l, hl, hv⟩
  obtain ⟨ws, hw, l, hl, h5, ps, h6, h7, h8⟩ := key _ _ _ h3
  have hn := load_keys h2
  have hp : (ps.map (·.1)).Perm (inUse ls.xref) := by rw [h6]; exact (hl.filter _).map _
  refine ⟨ps, ?_, fun n => ?_, h7, ?_⟩
  · rw [hp.nodup_iff]
    exact List.Nodup.sublist ((List.filter_sublist).map _) hn
  · rw [hp.mem_iff, inUse, List.mem_map]
    constructor
    · rintro ⟨⟨n, e⟩, hm, rfl⟩
      rw [List.mem_filter] at hm
      exact ⟨e, Assoc.get?_of_mem' hn hm.1, by simpa using hm.2⟩
    · rintro ⟨e, he, ht⟩
      exact ⟨(n, e), List.mem_filter.2 ⟨Assoc.get?_some_mem he, by simpa using ht⟩, rfl⟩
  · rw [h4, hw.raw, ← h8]
    exact printed_of ws h5

/-- two objects, one of them a stream, and one not in use -/
def rawFile : Bytes := b!"1 0 obj<</A 1/B[<</C 2>>]>>endobj 2 0 obj<</Length 1>>stream\nx\nendstream endobj\nxref\n3 1\n0 9 f \ntrailer<<>>"

/-- raw.pdf after the run for that file, if it returns without an error -/
def rawText (o : Order) : Option Bytes :=
  let r := parse { input := some rawFile, canCreate := fun _ => true, outExists := false, order := o } Concrete.ext (some false) 3 2 2 []
  if r.outcome = .returned none then some r.out.raw else none

set_option maxRecDepth 100000 in
example : rawText default = some b!"1 0 obj\n<</A 1/B [<</C 2>>]>>\nendobj\n\n2 0 obj\n<</Length 1>>\nstream\nx\nendstream\nendobj\n\n" := by decide +kernel
set_option maxRecDepth 100000 in
example : rawText backwards = some b!"1 0 obj\n<</B [<</C 2>>]/A 1>>\nendobj\n\n2 0 obj\n<</Length 1>>\nstream\nx\nendstream\nendobj\n\n" := by decide +kernel

end Pdf.Props
