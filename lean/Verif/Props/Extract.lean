import Verif.Lemmas.Covers
import Verif.Lemmas.Emits
import Verif.Props.Order
/-!
What extraction takes from dictionaries: scripts and URIs (C47), file specifications and actions (C48),
text of pages (C45).
-/

namespace Pdf.Props
open Pdf Spec St

/-! ### C47 -/

/-- What `Parse` did when it returned without an error. -/
theorem parse_run {sys : Sys} {ext : Ext} {verbose : Option Bool} {f fx ft : Nat} {pw : Bytes} (h : (parse sys ext verbose f fx ft pw).outcome = .returned none) :
    ∃ file ls xs, sys.input = some file ∧ load ⟨file, ext, verbose⟩ sys.order f fx pw LS.init = .ok (none, ls) ∧
      extractAll (ls.env ⟨file, ext, verbose⟩) f ft ls.xref ⟨ls.ps, {}, sys.order.next.next⟩ = .ok ((), xs) ∧ (parse sys ext verbose f fx ft pw).out = xs.out ∧
      (parse sys ext verbose f fx ft pw).errors = xs.ps.log := by
  rw [parse] at h ⊢
  cases hi : sys.input with
  | none => rw [hi] at h; cases h
  | some file =>
    rw [hi] at h
    dsimp only at h ⊢
    cases hc : (createAll sys outputFiles []).2.2 with
    | false => simp only [hc] at h; cases h
    | true =>
      simp only [hc, if_true] at h ⊢
      have hb : parseBody file sys.order ext verbose f fx ft pw = (debug verbose >>= fun _ => load ⟨file, ext, verbose⟩ sys.order f fx pw LS.init >>= fun p =>
          match p.1 with
          | some e => .ok (some e, ⟨p.2.ps, {}, sys.order.next.next⟩)
          | none => extractAll (p.2.env ⟨file, ext, verbose⟩) f ft p.2.xref ⟨p.2.ps, {}, sys.order.next.next⟩ >>= fun p => .ok (none, p.2)) := rfl
      rw [hb] at h ⊢
      cases hv : debug verbose with
      | panic w => rw [hv] at h; cases h
      | oof => rw [hv] at h; cases h
      | ok u =>
        rw [hv] at h
        dsimp only [Bind.bind, Res.bind] at h ⊢
        cases hl : load ⟨file, ext, verbose⟩ sys.order f fx pw LS.init with
        | panic w => rw [hl] at h; cases h
        | oof => rw [hl] at h; cases h
        | ok p =>
          obtain ⟨e, ls⟩ := p
          rw [hl] at h
          cases e with
          | some e => cases h
          | none =>
            dsimp only at h ⊢
            cases hx : extractAll (ls.env ⟨file, ext, verbose⟩) f ft ls.xref ⟨ls.ps, {}, sys.order.next.next⟩ with
            | panic w => rw [hx] at h; cases h
            | oof => rw [hx] at h; cases h
            | ok q => exact ⟨file, ls, q.2, rfl, hl, hx, rfl, rfl⟩

/-- what the writes put into javascript.js -/
theorem scripts_text : ∀ ws : List Write, ws.flatMap Write.javascriptJs = (scripts ws).flatMap fun b => b ++ b!"\n" := by
  intro ws
  induction ws with
  | nil => rfl
  | cons w t ih => rw [List.flatMap_cons, ih]; cases w <;> rfl

theorem urls_text : ∀ ws : List Write, ws.flatMap Write.urlsTxt = (urlsOf ws).flatMap fun b => b ++ b!"\n" := by
  intro ws
  induction ws with
  | nil => rfl
  | cons w t ih => rw [List.flatMap_cons, ih]; cases w <;> rfl

theorem infix_flatMap {l : List Bytes} {b : Bytes} (h : b ∈ l) : ∃ x y, l.flatMap (fun b => b ++ b!"\n") = x ++ (b ++ b!"\n" ++ y) := by
  obtain ⟨l1, l2, rfl⟩ := List.append_of_mem h
  exact ⟨l1.flatMap fun b => b ++ b!"\n", l2.flatMap fun b => b ++ b!"\n", by rw [List.flatMap_append, List.flatMap_cons]⟩

/-- **C47, partial** After `Parse` has returned without an error, every object in use was read, and for every
dictionary inside it, at any depth, the string given there for /JS is in javascript.js with a line feed
after it, and that for /URI in urls.txt. Missing: objects that are not themselves dictionaries (for which
it is false, see `C47_false`). -/
theorem C47_partial {sys : Sys} {ext : Ext} {verbose : Option Bool} {f fx ft : Nat} {pw : Bytes} {r : ParseResult} (hr : parse sys ext verbose f fx ft pw = r)
    (h : r.outcome = .returned none) :
    ∃ file ls, sys.input = some file ∧ load ⟨file, ext, verbose⟩ sys.order f fx pw LS.init = .ok (none, ls) ∧
      ∀ n e, (n, e) ∈ ls.xref → e.typ = 1 → ∃ s s' o, getObject (ls.env ⟨file, ext, verbose⟩) f n s = .ok (o, s') ∧
        ∀ v, o.value = .dict v → ∀ d ∈ dictsIn (.dict v),
          (∀ b, d.get? b!"JS" = some (.str b) → ∃ x y, r.out.javascript = x ++ (b ++ b!"\n" ++ y)) ∧
          (∀ b, d.get? b!"URI" = some (.str b) → ∃ x y, r.out.urls = x ++ (b ++ b!"\n" ++ y)) := by
  subst hr
  obtain ⟨file, ls, xs, h1, h2, h3, h4, -⟩ := parse_run h
  refine ⟨file, ls, h1, h2, fun n e hm he => ?_⟩
  obtain ⟨ws, hw, hq⟩ := extractAll_own _ f ft ls.xref _ _ _ h3
  obtain ⟨s, s', o, h5, h6⟩ := hq (n, e) hm he
  refine ⟨s, s', o, h5, fun v hv d hd => ?_⟩
  have h7 := h6 d (by rw [dictsOf, hv]; exact hd)
  rw [h4, hw.javascript, hw.urls, scripts_text, urls_text]
  exact ⟨fun b hb => infix_flatMap (h7.1 b hb), fun b hb => infix_flatMap (h7.2 b hb)⟩

/-- **C47, partial** What javascript.js consists of, exactly: for each object in use and each dictionary inside it
the script its entry /JS stands for, a string or the data of a stream, given directly or by
reference, once each, in some order. The strings for /URI are all in urls.txt, as often as they occur. -/
theorem C47_exact_partial {sys : Sys} {ext : Ext} {verbose : Option Bool} {f fx ft : Nat} {pw : Bytes} {r : ParseResult} (hr : parse sys ext verbose f fx ft pw = r)
    (h : r.outcome = .returned none) :
    ∃ file ls, sys.input = some file ∧ load ⟨file, ext, verbose⟩ sys.order f fx pw LS.init = .ok (none, ls) ∧
      ∀ (objs : Int → IndObj) (js uri : Dict → Option Bytes), (∀ n, Reads (getObject (ls.env ⟨file, ext, verbose⟩) f n) (objs n)) →
        (∀ d, ScriptIs (resolver (ls.env ⟨file, ext, verbose⟩) f) d (js d)) →
        (∀ d, Reads (Dict.getString (resolver (ls.env ⟨file, ext, verbose⟩) f) d b!"URI") (uri d)) →
        (∃ l : List Bytes, l.Perm ((inUse ls.xref).flatMap fun n => (dictsOf (objs n)).filterMap js) ∧ r.out.javascript = l.flatMap fun b => b ++ b!"\n") ∧
        ∃ l rest : List Bytes, l.Perm (((inUse ls.xref).flatMap fun n => (dictsOf (objs n)).filterMap uri) ++ rest) ∧ r.out.urls = l.flatMap fun b => b ++ b!"\n" := by
  subst hr
  obtain ⟨file, ls, xs, h1, h2, h3, h4, -⟩ := parse_run h
  refine ⟨file, ls, h1, h2, fun objs js uri ho hj hu => ?_⟩
  obtain ⟨ws, hw, hq, rest, hq'⟩ := extractAll_covers (ft := ft) hj hu ho ls.xref _ _ _ h3
  rw [h4, hw.javascript, hw.urls, scripts_text, urls_text]
  exact ⟨⟨_, hq, rfl⟩, _, rest, hq', rfl⟩

theorem reads_of_fixed {α : Type} [Nonempty α] {x : M α} (h : ∃ r, Fixed x r) : ∃ a, Reads x a := by
  obtain ⟨r, hr⟩ := h
  obtain ⟨a0⟩ := (inferInstance : Nonempty α)
  cases r with
  | ok p =>
    refine ⟨p.1, fun s v s' hv => ?_⟩
    obtain ⟨s1, h1, -⟩ := hr s
    rw [h1] at hv
    cases hv; rfl
  | panic w => exact ⟨a0, fun s v s' hv => by rw [show x s = .panic w from hr s] at hv; cases hv⟩
  | oof => exact ⟨a0, fun s v s' hv => by rw [show x s = .oof from hr s] at hv; cases hv⟩

/-- The hypotheses of `C47_exact_partial` can be met whenever no offset is negative. -/
theorem C47_exact_meets {env : Env} (hoff : NonnegOffsets env) (f : Nat) : ∃ (objs : Int → IndObj) (js uri : Dict → Option Bytes),
    (∀ n, Reads (getObject env f n) (objs n)) ∧ (∀ d, ScriptIs (resolver env f) d (js d)) ∧ ∀ d, Reads (Dict.getString (resolver env f) d b!"URI") (uri d) := by
  have hcl := isFixed_cl hoff f
  haveI : Nonempty IndObj := ⟨⟨0, 0, Obj.null, none⟩⟩
  obtain ⟨objs, h1⟩ := Classical.axiomOfChoice fun n => reads_of_fixed (α := IndObj) (getObject_fixed hoff f n)
  obtain ⟨uri, h2⟩ := Classical.axiomOfChoice fun d => reads_of_fixed (hcl.dictString d b!"URI")
  have hj : ∀ d, ∃ r, ScriptIs (resolver env f) d r := by
    intro d
    obtain ⟨a, ha⟩ := reads_of_fixed (hcl.dictString d b!"JS")
    obtain ⟨c, hc⟩ := reads_of_fixed (hcl.dictStream d b!"JS")
    cases a with
    | some a => exact ⟨_, .string ha⟩
    | none =>
      cases c with
      | some c => exact ⟨_, .stream ha hc⟩
      | none => exact ⟨_, .none ha hc⟩
  obtain ⟨js, h3⟩ := Classical.axiomOfChoice hj
  exact ⟨objs, js, uri, h1, h3, h2⟩

/-- A dictionary inside an array inside a dictionary, with a script and a URI. -/
def nestedSys : Sys := { input := some b!"1 0 obj<</A[<</JS(x)/URI(u)>>]>> endobj\n", canCreate := fun _ => true, outExists := false }

set_option maxRecDepth 100000 in
example : (parse nestedSys Concrete.ext (some false) 2 2 2 []).outcome = .returned none ∧ (parse nestedSys Concrete.ext (some false) 2 2 2 []).out.javascript = b!"x\n" ∧
    (parse nestedSys Concrete.ext (some false) 2 2 2 []).out.urls = b!"u\n" := by decide +kernel

/-- The same dictionary in an object that is an array. -/
def arraySys : Sys := { input := some b!"1 0 obj[<</JS(x)>>]endobj\n", canCreate := fun _ => true, outExists := false }

set_option maxRecDepth 100000 in
theorem array_missed : ((parse arraySys Concrete.ext (some false) 2 2 2 []).outcome, (parse arraySys Concrete.ext (some false) 2 2 2 []).out.javascript) = (.returned none, []) := by decide +kernel

/-- the value of an object in use of a loaded file -/
def valueIn (cfg : Cfg) (n : Int) : Option Obj := match load cfg default 2 2 [] LS.init with
  | .ok (none, ls) => match ls.xref.get? n, getObject (ls.env cfg) 2 n ls.ps with
    | some e, .ok (o, _) => if e.typ = 1 then some o.value else none
    | _, _ => none
  | _ => none

theorem valueIn_run {cfg : Cfg} {n : Int} {v : Obj} (h : valueIn cfg n = some v) : ∃ ls e s s' o, load cfg default 2 2 [] LS.init = .ok (none, ls) ∧ ls.xref.get? n = some e ∧ e.typ = 1 ∧
    getObject (ls.env cfg) 2 n s = .ok (o, s') ∧ o.value = v := by
  rw [valueIn] at h
  split at h
  · rename_i ls hl
    split at h
    · rename_i e o s' he hg
      split at h
      · rename_i ht
        exact ⟨ls, e, ls.ps, s', o, hl, he, ht, hg, Option.some.inj h⟩
      · cases h
    · cases h
  · cases h

set_option maxRecDepth 100000 in
theorem array_value : valueIn ⟨b!"1 0 obj[<</JS(x)>>]endobj\n", Concrete.ext, some false⟩ 1 = some (.arr [.dict [(b!"JS", .str b!"x")]]) := by decide +kernel

theorem array_result : ∃ r, parse arraySys Concrete.ext (some false) 2 2 2 [] = r ∧ r.outcome = .returned none ∧ r.out.javascript = [] := by
  have h := array_missed
  generalize parse arraySys Concrete.ext (some false) 2 2 2 [] = r at h ⊢
  exact ⟨r, rfl, congrArg Prod.fst h, congrArg Prod.snd h⟩

/-- **C47 fails** for objects that are arrays: dictionaries inside them are not extracted. -/
theorem C47_false : ∃ (sys : Sys) (ext : Ext) (file : Bytes) (r : ParseResult) (ls : LS) (e : XrefEntry) (s s' : PS) (o : IndObj) (d : Dict),
    parse sys ext (some false) 2 2 2 [] = r ∧ r.outcome = .returned none ∧ sys.input = some file ∧ load ⟨file, ext, some false⟩ default 2 2 [] LS.init = .ok (none, ls) ∧
    ls.xref.get? 1 = some e ∧ e.typ = 1 ∧ getObject (ls.env ⟨file, ext, some false⟩) 2 1 s = .ok (o, s') ∧
    d ∈ dictsIn o.value ∧ d.get? b!"JS" = some (.str b!"x") ∧ r.out.javascript = [] := by
  obtain ⟨r, h1, h2, h3⟩ := array_result
  obtain ⟨ls, e, s, s', o, h4, h5, h6, h7, h8⟩ := valueIn_run array_value
  exact ⟨arraySys, Concrete.ext, _, r, ls, e, s, s', o, [(b!"JS", .str b!"x")], h1, h2, rfl, h4, h5, h6, h7, by rw [h8]; simp [dictsIn, dictsInList, dictsInValues], rfl, h3⟩

/-! ### C48 -/

/-- What was written apart from messages about abnormalities. -/
def visible (ws : List Write) : List Write := ws.filter fun w => w.kind ≠ .errors

theorem visible_quiet {ws : List Write} (h : Quiet ws) : visible ws = [] := by
  rw [visible, List.filter_eq_nil_iff]
  intro w hw
  simp [h w hw]

theorem visible_append (ws vs : List Write) : visible (ws ++ vs) = visible ws ++ visible vs := List.filter_append ..

/-- Every run that returns adds `vs` to the report, and perhaps messages about abnormalities. -/
def Adds (x : X Unit) (vs : List Write) : Prop := ∀ s s', x s = .ok ((), s') → ∃ ws, Wrote ws s s' ∧ visible ws = vs

theorem adds_lift {α : Type} {x : M α} {a : α} {k : α → X Unit} {vs : List Write} (hx : LogFree x) (ha : Reads x a) (hk : Adds (k a) vs) : Adds (liftX x >>= k) vs := by
  have : Post (liftX x >>= k) fun _ ws => visible ws = vs := Post.bind (Post.liftX hx) fun b ws ⟨hq, hb⟩ => by
    rw [hb _ ha]
    intro s u s' hr
    obtain ⟨ws', h1, h2⟩ := hk s s' hr
    exact ⟨ws', h1, by show visible (ws ++ ws') = vs; rw [visible_append, visible_quiet hq, h2]; rfl⟩
  exact fun s s' h => this s () s' h

theorem adds_pure : Adds (pure ()) [] := by
  intro s s' h
  cases h
  exact ⟨[], .refl _, rfl⟩

theorem adds_of {x : X Unit} {vs : List Write} (h : Post x fun _ ws => ws = vs) (hv : ∀ w ∈ vs, w.kind ≠ .errors) : Adds x vs := by
  intro s s' hr
  obtain ⟨ws, h1, h2⟩ := h s () s' hr
  refine ⟨ws, h1, ?_⟩
  rw [h2, visible, List.filter_eq_self]
  intro w hw
  simpa using hv w hw

theorem adds_bind {x : X Unit} {k : Unit → X Unit} {vs us : List Write} (hx : Adds x vs) (hk : Adds (k ()) us) : Adds (x >>= k) (vs ++ us) := by
  have : Post (x >>= k) fun _ ws => visible ws = vs ++ us := Post.bind (P := fun _ ws => visible ws = vs) (fun s u s' hr => hx s s' hr) fun b ws hq => by
    intro s u s' hr
    obtain ⟨ws', h1, h2⟩ := hk s s' hr
    exact ⟨ws', h1, by show visible (ws ++ ws') = vs ++ us; rw [visible_append, hq, h2]⟩
  exact fun s s' h => this s () s' h

theorem adds_file (h n : Bytes) : Adds (putFile h n) [.file h n] := adds_of (Post.putFile h n) (by simp [Write.kind])
theorem adds_command (f p : Bytes) : Adds (putCommand f p) [.command f p] := adds_of (Post.putCommand f p) (by simp [Write.kind])
theorem adds_url (f : Bytes) : Adds (putUrl f) [.url f] := adds_of (Post.putUrl f) (by simp [Write.kind])

section
variable {ext : Ext} {rs : Resolver} (hrs : ∀ n, LogFree (rs n)) {d : Dict} (c : Bool)
include hrs

/-- **C48** A file specification with /FS (URL) adds its /F to urls.txt and nothing else. -/
theorem C48_url {f : Bytes} (hfs : Reads (Dict.getString rs d b!"FS") (some b!"URL")) (hf : Reads (Dict.getString rs d b!"F") (some f)) :
    Adds (fileExtract ext rs d c) [.url f] := by
  have hcl := logFree_cl hrs
  rw [fileExtract]
  refine adds_lift (hcl.dictString _ _) hfs ?_
  dsimp only [Option.getD]
  rw [if_pos rfl]
  exact adds_lift (hcl.dictString _ _) hf (adds_url f)

/-- **C48** With no /F it adds nothing. -/
theorem C48_url_none (hfs : Reads (Dict.getString rs d b!"FS") (some b!"URL")) (hf : Reads (Dict.getString rs d b!"F") none) :
    Adds (fileExtract ext rs d c) [] := by
  have hcl := logFree_cl hrs
  rw [fileExtract]
  refine adds_lift (hcl.dictString _ _) hfs ?_
  dsimp only [Option.getD]
  rw [if_pos rfl]
  exact adds_lift (hcl.dictString _ _) hf adds_pure

variable {fs : Option Bytes} (hfs : Reads (Dict.getString rs d b!"FS") fs) (hne : fs ≠ some b!"URL")
include hfs hne

theorem not_url : fs.getD [] ≠ b!"URL" := by
  cases fs with
  | none => decide
  | some x => intro h; exact hne (by rw [show x = b!"URL" from h])

/-- **C48** An embedded file is written to the file named by the hexadecimal MD5 of its data and listed in
files.txt with that hash and its name (32 zeros if it has none). -/
theorem C48_embedded {ef : Dict} {data : Option (Option Bytes)} {f : Option Bytes} (hef : Reads (Dict.getDict rs d b!"EF") (some ef))
    (hd : Reads (Dict.getStream rs ef b!"F") data) (hf : Reads (Dict.getString rs d b!"F") f) :
    Adds (fileExtract ext rs d c) [.file (hexEncode (ext.md5 ((data.getD none).getD []))) (f.getD unknownHash), .dump (hexEncode (ext.md5 ((data.getD none).getD []))) ((data.getD none).getD [])] := by
  have hcl := logFree_cl hrs
  rw [fileExtract]
  refine adds_lift (hcl.dictString _ _) hfs ?_
  dsimp only
  rw [if_neg (not_url hrs hfs hne)]
  refine adds_lift (hcl.dictDict _ _) hef ?_
  refine adds_lift (hcl.dictStream _ _) hd ?_
  refine adds_lift (hcl.dictString _ _) hf ?_
  exact adds_of (Post.dumpFile ext _ _) (by simp [Write.kind])

variable (hef : Reads (Dict.getDict rs d b!"EF") none)
include hef

/-- **C48** A file with parameters is listed with 32 zeros, and with its parameters in commands.txt, whether or
not it is launched. -/
theorem C48_params {f p : Bytes} (hp : Reads (Dict.getString rs d b!"P") (some p)) (hf : Reads (Dict.getString rs d b!"F") (some f)) :
    Adds (fileExtract ext rs d c) [.file unknownHash f, .command f p] := by
  have hcl := logFree_cl hrs
  rw [fileExtract]
  refine adds_lift (hcl.dictString _ _) hfs ?_
  dsimp only
  rw [if_neg (not_url hrs hfs hne)]
  refine adds_lift (hcl.dictDict _ _) hef ?_
  refine adds_lift (hcl.dictString _ _) hp ?_
  refine adds_lift (hcl.dictString _ _) hf ?_
  exact adds_bind (adds_file _ _) (adds_command _ _)

/-- **C48** A file with neither is listed with 32 zeros, and if it is launched it is in commands.txt too. -/
theorem C48_plain {f : Bytes} (hp : Reads (Dict.getString rs d b!"P") none) (hf : Reads (Dict.getString rs d b!"F") (some f)) :
    Adds (fileExtract ext rs d c) ((if c then [.command f []] else []) ++ [.file unknownHash f]) := by
  have hcl := logFree_cl hrs
  rw [fileExtract]
  refine adds_lift (hcl.dictString _ _) hfs ?_
  dsimp only
  rw [if_neg (not_url hrs hfs hne)]
  refine adds_lift (hcl.dictDict _ _) hef ?_
  refine adds_lift (hcl.dictString _ _) hp ?_
  refine adds_lift (hcl.dictString _ _) hf ?_
  cases c
  · exact adds_file _ _
  · exact adds_bind (adds_command _ _) (adds_file _ _)

/-- **C48** A file without a name adds nothing unless it is embedded. -/
theorem C48_nameless {p : Option Bytes} (hp : Reads (Dict.getString rs d b!"P") p) (hf : Reads (Dict.getString rs d b!"F") none) : Adds (fileExtract ext rs d c) [] := by
  have hcl := logFree_cl hrs
  rw [fileExtract]
  refine adds_lift (hcl.dictString _ _) hfs ?_
  dsimp only
  rw [if_neg (not_url hrs hfs hne)]
  refine adds_lift (hcl.dictDict _ _) hef ?_
  refine adds_lift (hcl.dictString _ _) hp ?_
  cases p with
  | none => exact adds_lift (hcl.dictString _ _) hf adds_pure
  | some p => exact adds_lift (hcl.dictString _ _) hf adds_pure

end

section
variable {ext : Ext} {rs : Resolver} (hrs : ∀ n, LogFree (rs n)) {d : Dict}
include hrs

/-- **C48** An action adds what the file specifications /F and /Win add, as launched ones if it is a launch
action. -/
theorem C48_action {s : Option Bytes} (hs : Reads (Dict.getName rs d b!"S") s) (hstr : Reads (Dict.getString rs d b!"F") none) {f win : Option Dict}
    (hf : Reads (Dict.getDict rs d b!"F") f) (hwin : Reads (Dict.getDict rs d b!"Win") win) {vs us : List Write}
    (h1 : ∀ f', f = some f' → Adds (fileExtract ext rs f' (s = some b!"Launch")) vs) (h1n : f = none → vs = [])
    (h2 : ∀ w, win = some w → Adds (fileExtract ext rs w (s = some b!"Launch")) us) (h2n : win = none → us = []) :
    Adds (actionExtract ext rs d) (vs ++ us) := by
  have hcl := logFree_cl hrs
  rw [actionExtract]
  refine adds_lift (hcl.dictName _ _) hs ?_
  have hrest : Adds (liftX (Dict.getDict rs d b!"Win") >>= fun w => match w with | some win => fileExtract ext rs win (decide (s = some b!"Launch")) | none => pure ()) us := by
    refine adds_lift (hcl.dictDict _ _) hwin ?_
    cases win with
    | none => rw [h2n rfl]; exact adds_pure
    | some w => exact h2 w rfl
  refine adds_lift (hcl.dictString _ _) hstr ?_
  refine adds_lift (hcl.dictDict _ _) hf ?_
  cases f with
  | none => rw [h1n rfl]; exact hrest
  | some f => exact adds_bind (h1 f rfl) hrest

/-- **C48** An action whose /F is a string lists that file with 32 zeros. -/
theorem C48_action_string {s : Option Bytes} (hs : Reads (Dict.getName rs d b!"S") s) {f : Bytes} (hstr : Reads (Dict.getString rs d b!"F") (some f)) {win : Option Dict}
    (hwin : Reads (Dict.getDict rs d b!"Win") win) {us : List Write}
    (h2 : ∀ w, win = some w → Adds (fileExtract ext rs w (s = some b!"Launch")) us) (h2n : win = none → us = []) :
    Adds (actionExtract ext rs d) (.file unknownHash f :: us) := by
  have hcl := logFree_cl hrs
  rw [actionExtract]
  refine adds_lift (hcl.dictName _ _) hs ?_
  refine adds_lift (hcl.dictString _ _) hstr ?_
  refine adds_bind (adds_file _ _) ?_
  refine adds_lift (hcl.dictDict _ _) hwin ?_
  cases win with
  | none => rw [h2n rfl]; exact adds_pure
  | some w => exact h2 w rfl

end

theorem reads_string {rs : Resolver} {d : Dict} {k b : Bytes} (h : d.get? k = some (.str b)) : Reads (Dict.getString rs d k) (some b) := by
  intro s v s' hv
  rw [Dict.getString_direct _ h (by simp)] at hv
  cases hv; rfl

theorem reads_no_string {rs : Resolver} {d : Dict} {k : Bytes} (h : d.get? k = none) : Reads (Dict.getString rs d k) none := by
  intro s v s' hv
  rw [Dict.getString_none _ h] at hv
  cases hv; rfl

theorem reads_no_dict {rs : Resolver} {d : Dict} {k : Bytes} (h : d.get? k = none) : Reads (Dict.getDict rs d k) none := by
  intro s v s' hv
  rw [Dict.getDict_none _ h] at hv
  cases hv; rfl

theorem reads_dict {rs : Resolver} {d e : Dict} {k : Bytes} (h : d.get? k = some (.dict e)) : Reads (Dict.getDict rs d k) (some e) := by
  intro s v s' hv
  rw [Dict.getDict_direct _ h (by simp)] at hv
  cases hv; rfl

theorem reads_name {rs : Resolver} {d : Dict} {k b : Bytes} (h : d.get? k = some (.name b)) : Reads (Dict.getName rs d k) (some b) := by
  intro s v s' hv
  rw [Dict.getName_direct _ h (by simp)] at hv
  cases hv; rfl

/-- The hypotheses of `C48_url`, `C48_params`, `C48_plain` and `C48_action`. -/
example (ext : Ext) (rs : Resolver) (hrs : ∀ n, LogFree (rs n)) : Adds (fileExtract ext rs [(b!"FS", .str b!"URL"), (b!"F", .str b!"u")] false) [.url b!"u"] :=
  C48_url hrs _ (reads_string rfl) (reads_string rfl)
example (ext : Ext) (rs : Resolver) (hrs : ∀ n, LogFree (rs n)) : Adds (fileExtract ext rs [(b!"F", .str b!"f"), (b!"P", .str b!"p")] false) [.file unknownHash b!"f", .command b!"f" b!"p"] :=
  C48_params hrs _ (reads_no_string rfl) (by simp) (reads_no_dict rfl) (reads_string rfl) (reads_string rfl)
example (ext : Ext) (rs : Resolver) (hrs : ∀ n, LogFree (rs n)) : Adds (actionExtract ext rs [(b!"S", .name b!"Launch"), (b!"F", .dict [(b!"F", .str b!"f")])]) [.command b!"f" [], .file unknownHash b!"f"] := by
  have hf := C48_plain (ext := ext) (rs := rs) hrs (d := [(b!"F", .str b!"f")]) true (fs := none) (reads_no_string rfl) (by simp) (reads_no_dict rfl) (reads_no_string rfl) (reads_string (b := b!"f") rfl)
  refine C48_action hrs (s := some b!"Launch") (f := some [(b!"F", .str b!"f")]) (win := none) (us := []) (vs := [.command b!"f" [], .file unknownHash b!"f"]) (reads_name rfl) ?_ (reads_dict rfl) (reads_no_dict rfl) ?_ (by simp) (by simp) (by simp)
  · intro s v s' hv
    rw [Dict.getString_direct (o := .dict [(b!"F", .str b!"f")]) _ rfl (by simp)] at hv
    cases hv; rfl
  · intro f' e
    cases e
    exact hf

/-- An embedded file, a parameterised one, a launched one, a URL and a plain one. -/
def filesSys : Sys := { input := some b!"1 0 obj<</A<</F<</EF<</F 2 0 R>>/F(e)>>>>/B<</A<</F<</F(f)/P(p)>>>>>>/C<</A<</S/Launch/F<</F(l)>>>>>>/D<</A<</F<</FS(URL)/F(u)>>>>>>/E<</A<</F(n)>>>>>>endobj\n2 0 obj<</Length 1>>stream\nx\nendstream endobj\n", canCreate := fun _ => true, outExists := false }

set_option maxRecDepth 100000 in
example : let r := parse filesSys Concrete.ext (some false) 3 2 2 []
    r.outcome = .returned none ∧ linesOf r.out.files = [hexEncode (Concrete.ext.md5 b!"x") ++ b!":e", unknownHash ++ b!":f", unknownHash ++ b!":l", unknownHash ++ b!":n"] ∧
    linesOf r.out.commands = [b!"f p", b!"l "] ∧ r.out.urls = b!"u\n" ∧ r.out.dumped = [(hexEncode (Concrete.ext.md5 b!"x"), b!"x")] := by decide +kernel

/-- A launch action whose file is given as a string. -/
def launchSys : Sys := { input := some b!"1 0 obj<</A<</S/Launch/F(x)>>>>endobj\n", canCreate := fun _ => true, outExists := false }

set_option maxRecDepth 100000 in
/-- **C48 fails** for launch actions whose /F is a string: the file is listed, but no command. -/
theorem C48_false : let r := parse launchSys Concrete.ext (some false) 2 2 2 []
    (r.outcome, r.out.files, r.out.commands) = (.returned none, unknownHash ++ b!":x\n", []) := by decide +kernel

/-! ### C45 -/

theorem pageFonts_reads {rs : Resolver} (hrs : ∀ n, LogFree (rs n)) {fonts : Dict} {font : Bytes → Font} : ∀ (ks : List Bytes) (acc : Assoc Bytes Font),
    (∀ k ∈ ks, FontIs rs fonts k (font k)) → Reads (pageFonts rs fonts ks acc) (ks.foldl (fun m k => m.set k (font k)) acc) := by
  intro ks
  induction ks with
  | nil => intro acc _ s v s' hv; cases hv; rfl
  | cons k t ih =>
    intro acc h s v s' hv
    obtain ⟨info, cmap, h1, h2, h3⟩ := h k (by simp)
    rw [pageFonts_cons, fontOf] at hv
    obtain ⟨fo, s1, hv1, hv⟩ := bind_ok hv
    obtain ⟨a, s2, hv2, hv1⟩ := bind_ok hv1
    rw [h1 _ _ _ hv2] at hv1
    obtain ⟨b, s3, hv3, hv1⟩ := bind_ok hv1
    rw [h2 _ _ _ hv3] at hv1
    dsimp only at hv1
    rw [h3] at hv1
    cases hv1
    exact ih _ (fun j hj => h j (by simp [hj])) _ _ _ hv

section
variable {rs : Resolver} (hrs : ∀ n, LogFree (rs n)) {d : Dict} {res fonts : Option Dict} {font : Bytes → Font}
  (hres : Reads (Dict.getDict rs d b!"Resources") res) (hfonts : Reads (Dict.getDict rs (res.getD []) b!"Font") fonts)
  (hfont : ∀ k ∈ (fonts.getD []).keys, FontIs rs (fonts.getD []) k (font k))
include hrs hres hfonts hfont

/-- the fonts that a page's resources name -/
theorem page_fonts {Q : Unit → List Write → Prop}
    (h : ∀ m : Assoc Bytes Font, (∀ k, m.get? k = if k ∈ (fonts.getD []).keys then some (font k) else none) → Post (pageBody rs d m) fun u ws => ∀ us, Quiet us → Q u (us ++ ws)) : Post (pageExtract rs d) Q := by
  have hcl := logFree_cl hrs
  rw [pageExtract_eq]
  refine Post.bind (Post.liftX (hcl.dictDict _ _)) fun a w1 ⟨q1, k1⟩ => ?_
  rw [k1 _ hres]
  refine Post.bind (Post.liftX (hcl.dictDict _ _)) fun b w2 ⟨q2, k2⟩ => ?_
  rw [k2 _ hfonts]
  refine Post.bind (Post.shuffle _) fun ks w3 ⟨q3, k3⟩ => ?_
  refine Post.bind (Post.liftX (hcl.pageFonts _ _ _)) fun m w4 ⟨q4, k4⟩ => ?_
  rw [k4 _ (pageFonts_reads hrs ks [] fun k hk => hfont k (k3.mem_iff.1 hk))]
  refine (h _ fun k => ?_).mono fun u ws hq => ?_
  · rw [pageFonts_get]
    simp only [k3.mem_iff]; rfl
  · have := hq (w1 ++ (w2 ++ (w3 ++ w4))) (by
      intro w hw
      rw [q3] at hw
      simp only [List.mem_append, List.not_mem_nil, false_or] at hw
      rcases hw with hw | hw | hw
      · exact q1 w hw
      · exact q2 w hw
      · exact q4 w hw)
    simpa only [List.append_assoc] using this

/-- **C45** A page whose /Contents is a stream adds the text of that stream, with the fonts that the page's
resources name, to contents.txt and nothing else. -/
theorem C45_page {c : Option Bytes} (hc : Reads (Dict.getStream rs d b!"Contents") (some c)) {s s' : XS} (h : pageExtract rs d s = .ok ((), s')) :
    ∃ (m : Assoc Bytes Font) (t : Bytes) (ws : List Write), (∀ k, m.get? k = if k ∈ (fonts.getD []).keys then some (font k) else none) ∧
      pageText m (c.getD []) = .ok t ∧ Wrote ws s s' ∧ visible ws = [.text t] := by
  have hcl := logFree_cl hrs
  have key : Post (pageExtract rs d) fun _ ws => ∃ (m : Assoc Bytes Font) (t : Bytes), (∀ k, m.get? k = if k ∈ (fonts.getD []).keys then some (font k) else none) ∧
      pageText m (c.getD []) = .ok t ∧ visible ws = [.text t] := by
    refine page_fonts hrs hres hfonts hfont fun m hm => ?_
    rw [pageBody]
    refine Post.bind (Post.liftX (hcl.dictStream _ _)) fun a w1 ⟨q1, k1⟩ => ?_
    rw [k1 _ hc]
    refine Post.bind (Post.ofRes (Q := fun t ws => ws = [] ∧ pageText m (c.getD []) = .ok t) fun t ht => ⟨rfl, ht⟩) fun t w2 ⟨q2, k2⟩ => ?_
    refine (Post.putText t).mono fun _ w3 k3 us hus => ⟨m, t, hm, k2, ?_⟩
    rw [q2, k3, visible_append, visible_quiet hus, visible_append, visible_quiet q1]
    rfl
  obtain ⟨ws, h1, m, t, h2, h3, h4⟩ := key s () s' h
  exact ⟨m, t, ws, h2, h3, h1, h4⟩

theorem parts_text {m : Assoc Bytes Font} {a : List Obj} {part : Nat → Option (Option Bytes)} (hpart : ∀ i, i < a.length → Reads (Arr.getStream rs a i) (part i)) :
    ∀ n i : Nat, i + n = a.length → Post (pageParts rs m a n i) fun _ ws => ∃ ts : List Bytes, visible ws = ts.map .text ∧
      ((List.range' i n).filterMap part).map (fun c => pageText m (c.getD [])) = ts.map .ok := by
  have hcl := logFree_cl hrs
  intro n
  induction n with
  | zero => intro i _; exact Post.pure ⟨[], rfl, rfl⟩
  | succ n ih =>
    intro i hi
    rw [pageParts]
    refine Post.bind (Post.liftX (hcl.arrStream _ _)) fun x w1 ⟨q1, k1⟩ => ?_
    rw [k1 _ (hpart i (by omega))]
    have hrec := ih (i + 1) (by omega)
    rw [Int.natCast_add, Int.natCast_one] at hrec
    rw [List.range'_succ, List.filterMap_cons]
    cases hp : part i with
    | none =>
      refine hrec.mono fun _ ws ⟨ts, h1, h2⟩ => ⟨ts, ?_, h2⟩
      rw [visible_append, visible_quiet q1, h1]; rfl
    | some c =>
      refine Post.bind (Post.ofRes (Q := fun t ws => ws = [] ∧ pageText m (c.getD []) = .ok t) fun t ht => ⟨rfl, ht⟩) fun t w2 ⟨q2, k2⟩ => ?_
      refine Post.bind (Post.putText t) fun _ w3 k3 => hrec.mono fun _ ws ⟨ts, h1, h2⟩ => ⟨t :: ts, ?_, ?_⟩
      · rw [visible_append, visible_quiet q1, q2, k3, visible_append, visible_append, h1]; rfl
      · rw [List.map_cons, List.map_cons, k2, h2]

/-- **C45** A page whose /Contents is an array adds the texts of the streams in it, in order, and nothing else. -/
theorem C45_page_parts (hc : Reads (Dict.getStream rs d b!"Contents") none) {a : List Obj} (ha : Reads (Dict.getArray rs d b!"Contents") (some a))
    {part : Nat → Option (Option Bytes)} (hpart : ∀ i, i < a.length → Reads (Arr.getStream rs a i) (part i)) {s s' : XS} (h : pageExtract rs d s = .ok ((), s')) :
    ∃ (m : Assoc Bytes Font) (ts : List Bytes) (ws : List Write), (∀ k, m.get? k = if k ∈ (fonts.getD []).keys then some (font k) else none) ∧
      ((List.range a.length).filterMap part).map (fun c => pageText m (c.getD [])) = ts.map .ok ∧ Wrote ws s s' ∧ visible ws = ts.map .text := by
  have hcl := logFree_cl hrs
  have key : Post (pageExtract rs d) fun _ ws => ∃ (m : Assoc Bytes Font) (ts : List Bytes), (∀ k, m.get? k = if k ∈ (fonts.getD []).keys then some (font k) else none) ∧
      ((List.range a.length).filterMap part).map (fun c => pageText m (c.getD [])) = ts.map .ok ∧ visible ws = ts.map .text := by
    refine page_fonts hrs hres hfonts hfont fun m hm => ?_
    rw [pageBody]
    refine Post.bind (Post.liftX (hcl.dictStream _ _)) fun x w1 ⟨q1, k1⟩ => ?_
    rw [k1 _ hc]
    refine Post.bind (Post.liftX (hcl.dictArray _ _)) fun x w2 ⟨q2, k2⟩ => ?_
    rw [k2 _ ha]
    refine (parts_text hrs hres hfonts hfont hpart a.length 0 (by omega)).mono fun _ w3 ⟨ts, k3, k4⟩ us hus => ⟨m, ts, hm, ?_, ?_⟩
    · rw [List.range_eq_range']; exact k4
    · rw [visible_append, visible_quiet hus, visible_append, visible_quiet q1, visible_append, visible_quiet q2, k3]; rfl
  obtain ⟨ws, h1, m, t, h2, h3, h4⟩ := key s () s' h
  exact ⟨m, t, ws, h2, h3, h1, h4⟩

end

/-- The hypotheses of `C45_page`: no fonts, and the stream of object 4. -/
example : let rs : Resolver := fun n => pure ⟨n, 0, .null, some b!"BT [(A)] TJ ET"⟩
    let d : Dict := [(b!"Contents", .ref 4 0)]
    (∀ n, LogFree (rs n)) ∧ Reads (Dict.getDict rs d b!"Resources") none ∧ Reads (Dict.getDict rs [] b!"Font") none ∧
      Reads (Dict.getStream rs d b!"Contents") (some (some b!"BT [(A)] TJ ET")) := by
  refine ⟨fun n => LogFree.pure _, reads_no_dict rfl, reads_no_dict rfl, fun s v s' hv => ?_⟩
  cases hv; rfl
/-- The hypotheses of `C45_page_parts`: a stream, something else, a stream. -/
example : let rs : Resolver := fun n => pure ⟨n, 0, .null, some b!"BT [(A)] TJ ET"⟩
    let a : List Obj := [.ref 4 0, .null, .ref 5 0]
    let d : Dict := [(b!"Contents", .arr a)]
    Reads (Dict.getStream rs d b!"Contents") none ∧ Reads (Dict.getArray rs d b!"Contents") (some a) ∧
      ∀ i : Nat, i < a.length → Reads (Arr.getStream rs a i) (if i = 1 then none else some (some b!"BT [(A)] TJ ET")) := by
  refine ⟨fun s v s' hv => ?_, fun s v s' hv => ?_, fun i hi s v s' hv => ?_⟩
  · cases hv; rfl
  · cases hv; rfl
  · have : i = 0 ∨ i = 1 ∨ i = 2 := by simp only [List.length_cons, List.length_nil] at hi; omega
    rcases this with rfl | rfl | rfl <;> cases hv <;> rfl

/-- A page with a font and two streams of content. -/
def pageSys : Sys := { input := some b!"1 0 obj<</Pages<</Resources<</Font<</F1<</ToUnicode 4 0 R>>>>>>/Contents[2 0 R 3 0 R]>>>>endobj\n2 0 obj<</Length 23>>stream\nBT /F1 1 Tf [(A)] TJ ET\nendstream endobj\n3 0 obj<</Length 12>>stream\nBT (B) Tj ET\nendstream endobj\n4 0 obj<</Length 90>>stream\n1 begincodespacerange <00> <ff> endcodespacerange 1 beginbfchar <41> <0058> endbfchar     \nendstream endobj\n", canCreate := fun _ => true, outExists := false }

set_option maxRecDepth 100000 in
example : let r := parse pageSys Concrete.ext (some false) 3 2 2 []
    (r.outcome, r.out.text) = (.returned none, 0 :: b!"X\nB\n") := by decide +kernel

end Pdf.Props
