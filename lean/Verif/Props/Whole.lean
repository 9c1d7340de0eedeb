import Verif.Props.Document
import Verif.Props.Report
import Verif.Props.GetObject
import Verif.Lemmas.Deeper
import Verif.Lemmas.Keys
/-!
C75: what `Parse` reports on a document.
-/

namespace Pdf.Props
open Pdf Pdf.Spec St

/-! ### What references stand for -/

theorem meant_listed {us : List Update} {n : Int} {p : Part} (h : meant us n = some p) : n ∈ ((revisions us).flatMap (·.entries)).map (·.1) := by
  apply Classical.byContradiction
  intro hn
  have := lists_none.2 (lastFor_none.2 hn)
  rw [meant, this] at h
  cases h

theorem final_exists (us : List Update) (k : Nat) : ∀ v n, left (((revisions us).flatMap (·.entries)).map (·.1)) v ≤ k → ∃ o s, Final us v n o s := by
  induction k with
  | zero =>
    intro v n hk
    by_cases hn : n ∈ v
    · exact ⟨_, _, .seen hn⟩
    · cases hp : meant us n with
      | none => exact ⟨_, _, .free hn hp⟩
      | some p => have := left_lt (meant_listed hp) hn; omega
  | succ k ih =>
    intro v n hk
    by_cases hn : n ∈ v
    · exact ⟨_, _, .seen hn⟩
    · cases hp : meant us n with
      | none => exact ⟨_, _, .free hn hp⟩
      | some p =>
        have := left_lt (meant_listed hp) hn
        by_cases hv : ∃ m g, p.obj.value = .ref m g
        · obtain ⟨m, g, hv⟩ := hv
          obtain ⟨o, s, h⟩ := ih (n :: v) m (by omega)
          exact ⟨o, s, .next hn hp hv h⟩
        · exact ⟨_, _, .stop hn hp fun m g h => hv ⟨m, g, h⟩⟩

theorem final_unique {us : List Update} {v : List Int} {n : Int} {o o' : Obj} {s s' : Option Bytes} (h : Final us v n o s) (h' : Final us v n o' s') : o = o' ∧ s = s' := by
  induction h generalizing o' s' with
  | seen h =>
    cases h' with
    | seen _ => exact ⟨rfl, rfl⟩
    | free h' _ => exact absurd h h'
    | stop h' _ _ => exact absurd h h'
    | next h' _ _ _ => exact absurd h h'
  | free h hm =>
    cases h' with
    | seen h' => exact absurd h' h
    | free _ _ => exact ⟨rfl, rfl⟩
    | stop _ h' _ => rw [hm] at h'; cases h'
    | next _ h' _ _ => rw [hm] at h'; cases h'
  | stop h hm hv =>
    cases h' with
    | seen h' => exact absurd h' h
    | free _ h' => rw [hm] at h'; cases h'
    | stop _ h' _ => rw [hm] at h'; cases h'; exact ⟨rfl, rfl⟩
    | next _ h' hr _ => rw [hm] at h'; cases h'; exact absurd hr (hv _ _)
  | next h hm hv _ ih =>
    cases h' with
    | seen h' => exact absurd h' h
    | free _ h' => rw [hm] at h'; cases h'
    | stop _ h' hr => rw [hm] at h'; cases h'; exact absurd hv (hr _ _)
    | next _ h' hr hf => rw [hm] at h'; cases h'; rw [hv] at hr; cases hr; exact ih hf

/-- Every document means something, and only one thing. -/
theorem C75_means (us : List Update) : ∃ view, Means us view ∧ ∀ view', Means us view' → view' = view := by
  obtain ⟨g, hg⟩ := Classical.axiomOfChoice fun n => (show ∃ q : Obj × Option Bytes, Final us [] n q.1 q.2 by
    obtain ⟨o, s, h⟩ := final_exists us _ [] n (Nat.le_refl _)
    exact ⟨(o, s), h⟩)
  refine ⟨⟨fun n => (g n).1, fun n => (g n).2⟩, hg, ?_⟩
  rintro ⟨a, b⟩ h
  have e1 : a = fun n => (g n).1 := funext fun n => (final_unique (h n) (hg n)).1
  have e2 : b = fun n => (g n).2 := funext fun n => (final_unique (h n) (hg n)).2
  rw [e1, e2]

/-! ### Loading -/

theorem dictsIn_trans (n : Nat) : ∀ {o : Obj} {d e : Dict}, sizeOf o < n → d ∈ dictsIn o → e ∈ dictsIn (.dict d) → e ∈ dictsIn o := by
  induction n with
  | zero => intro o d e h; omega
  | succ n ih =>
    intro o d e hs hd he
    cases o with
    | dict f =>
      rw [dictsIn] at hd
      rcases List.mem_cons.1 hd with rfl | hd
      · exact he
      · obtain ⟨p, hp, hd⟩ := mem_dictsInValues.1 hd
        rw [dictsIn]
        refine List.mem_cons_of_mem _ (mem_dictsInValues.2 ⟨p, hp, ih ?_ hd he⟩)
        have h1 := List.sizeOf_lt_of_mem hp
        have h2 : sizeOf p.2 < sizeOf p := by obtain ⟨a, b⟩ := p; simp <;> omega
        have h3 : sizeOf (Obj.dict f) = 1 + sizeOf f := by simp
        omega
    | arr l =>
      rw [dictsIn] at hd ⊢
      obtain ⟨x, hx, hd⟩ := mem_dictsInList.1 hd
      refine mem_dictsInList.2 ⟨x, hx, ih ?_ hd he⟩
      have h1 := List.sizeOf_lt_of_mem hx
      have h3 : sizeOf (Obj.arr l) = 1 + sizeOf l := by simp
      omega
    | _ => cases hd

theorem deep_inPlace {g : Int → Obj} (n : Nat) : ∀ d : Dict, sizeOf d < n → (∀ e ∈ dictsIn (.dict d), ∀ m gen, e.get? b!"Kids" ≠ some (.ref m gen)) → Deep g n d := by
  induction n with
  | zero => intro d h; omega
  | succ n ih =>
    intro d hs hd e he
    rw [kidsOf, arrayAt] at he
    cases hk : d.get? b!"Kids" with
    | none => rw [hk] at he; cases he
    | some o =>
      rw [hk] at he
      cases o with
      | ref m gen => exact absurd hk (hd d (by rw [dictsIn]; simp) m gen)
      | arr l =>
        replace he : Obj.dict e ∈ l := he
        have hm := Assoc.get?_some_mem hk
        refine ih e ?_ fun e' he' => hd e' ?_
        · have h1 := List.sizeOf_lt_of_mem hm
          have h2 : sizeOf l < sizeOf (b!"Kids", Obj.arr l) := by simp <;> omega
          have h3 := List.sizeOf_lt_of_mem he
          have h4 : sizeOf (Obj.dict e) = 1 + sizeOf e := by simp
          omega
        · rw [dictsIn]
          exact List.mem_cons_of_mem _ (mem_dictsInValues.2 ⟨_, hm, by rw [dictsIn]; exact mem_dictsInList.2 ⟨_, he, he'⟩⟩)
      | _ => cases he

/-- Dictionaries that give their kids in place have no endless way down. -/
theorem _root_.Pdf.Spec.KidsInPlace.ends {us : List Update} (h : KidsInPlace us) : KidsEnd us := by
  intro view _ n p hp d hd
  refine (deep_inPlace _ d (Nat.lt_succ_self _) fun e he => h n p hp e ?_).ends
  exact dictsIn_trans _ (Nat.lt_succ_self _) hd he

/-- The state after loading, whatever the bounds. -/
structure Loaded (us : List Update) (env : Env) : Prop where
  gets : ∀ n p, meant us n = some p → ∀ s, ∃ t, ∀ f, getObject env f n s = .ok (p.obj, t)
  free : ∀ n, meant us n = none → ∀ f s, getObject env f n s = .ok (⟨n, 0, .null, none⟩, s)
  inUse : ∀ n, (∃ e, env.xref.get? n = some e ∧ e.typ = 1) ↔ (meant us n).isSome
  nodup : (env.xref.map (·.1)).Nodup

/-- The entries in use are those of the objects that the document means. -/
theorem Mended.inUse {P : Bytes} {us : List Update} {xref : Assoc Int XrefEntry} (h : Mended P us xref) (hr : RightTables (docText P us) P.length us) (n : Int) : (∃ e, xref.get? n = some e ∧ e.typ = 1) ↔ (meant us n).isSome := by
  rcases meant_cases hr n with ⟨k1, k2, k3⟩ | ⟨x, k1, k2, k3⟩ | ⟨x, q, k1, k2, -, k4, -, -⟩
  · rw [k3]
    refine ⟨?_, by simp⟩
    rintro ⟨e, he, -⟩
    rw [h.absent n k2 k1] at he; cases he
  · rw [k3]
    refine ⟨?_, by simp⟩
    rintro ⟨e, he, ht⟩
    obtain ⟨e', h4, h5⟩ := h.typ n x k1
    rw [he] at h4
    cases h4
    exact absurd (h5.symm.trans ht) k2
  · rw [k4]
    refine ⟨fun _ => rfl, fun _ => ?_⟩
    obtain ⟨e', h4, h5⟩ := h.typ n x k1
    exact ⟨e', h4, h5.trans k2⟩

theorem document_loaded {P : Bytes} {us : List Update} {ext : Ext} (hd : Document ext.toCodecs P us) (hr : RightTables (docText P us) P.length us) (henc : trailerFor us b!"Encrypt" = none)
    (henc' : ∀ d, FirstDict us.tail d → d.get? b!"Encrypt" = none) (verbose : Option Bool) (ord : Order) (pw : Bytes) :
    ∃ ls, (∀ f fx, 1 ≤ f → us.length ≤ fx → load ⟨docText P us, ext, verbose⟩ ord f fx pw LS.init = .ok (none, ls)) ∧ Loaded us (ls.env ⟨docText P us, ext, verbose⟩) := by
  obtain ⟨ls, h1, h2, h3⟩ := C74_meant_partial hd hr henc henc' verbose ord 0 us.length (Nat.le_refl _) pw
  obtain ⟨s2, g1, g2, -⟩ := document_load (cfg := ⟨docText P us, ext, verbose⟩) hd rfl henc henc' ord 0 us.length (Nat.le_refl _) pw PS.init
  have e : s2 = ls := by
    have := g1.symm.trans h1
    cases this; rfl
  subst e
  refine ⟨s2, fun f fx a b => ?_, ⟨fun n p hp s => ?_, h3, g2.inUse hr, load_keys h1⟩⟩
  · rcases load_le ⟨docText P us, ext, verbose⟩ ord (f := 0 + 1) (f' := f) a b pw LS.init with h | h
    · rw [h1] at h; cases h
    · rw [← h, h1]
  · obtain ⟨t, ht, -⟩ := h2 n p hp 0 s
    refine ⟨t, fun f => ?_⟩
    rcases getObject_le (s2.env ⟨docText P us, ext, verbose⟩) (Nat.zero_le f) n s with h | h
    · rw [ht] at h; cases h
    · rw [← h, ht]

section
variable {us : List Update} {env : Env} (h : Loaded us env)
include h

theorem Loaded.getsAll {view : View} (hv : Means us view) (hk : KidsEnd us) (hs : StreamsLoad us) : GetsAll (fun d => ∃ n, Deep view.value n d) Loads env := by
  intro n s
  cases hm : meant us n with
  | none =>
    exact ⟨_, s, fun f => h.free n hm f s, ⟨AllDicts.null, by intro d hd; cases hd⟩, fun _ => rfl⟩
  | some p =>
    obtain ⟨t, ht⟩ := h.gets n p hm s
    refine ⟨_, t, ht, ⟨fun d hd => deep_of_ends (hk view hv n p hm d hd), hs n p hm⟩, fun hn => ?_⟩
    obtain ⟨e, he, -⟩ := (h.inUse n).2 (by rw [hm]; rfl)
    rw [hn] at he; cases he

theorem Loaded.read {n : Int} {s t : PS} {o : IndObj} (hg : Gets env n s o t) : (meant us n = none ∧ o = ⟨n, 0, .null, none⟩) ∨ ∃ p, meant us n = some p ∧ o = p.obj := by
  obtain ⟨f, hf⟩ := hg
  cases hm : meant us n with
  | none => rw [h.free n hm f s] at hf; cases hf; exact .inl ⟨rfl, rfl⟩
  | some p =>
    obtain ⟨t', ht⟩ := h.gets n p hm s
    rw [ht f] at hf; cases hf; exact .inr ⟨p, rfl, rfl⟩

theorem Loaded.chain {v : List Int} {n : Int} {s t : PS} {o : IndObj} (hc : Spec.Chain env v n s o t) : Final us v n o.value o.stream := by
  induction hc with
  | seen hn => exact .seen hn
  | stop hn hg hv =>
    rcases h.read hg with ⟨hm, rfl⟩ | ⟨p, hm, rfl⟩
    · exact .free hn hm
    · exact .stop hn hm hv
  | next hn hg hv _ ih =>
    rcases h.read hg with ⟨hm, rfl⟩ | ⟨p, hm, rfl⟩
    · cases hv
    · exact .next hn hm hv ih

theorem Loaded.view {view : View} (hv : Means us view) (f : Nat) : view.Of (resolver env f) := by
  intro n s o s' hr
  obtain ⟨t, hc, -⟩ := (C15_chain env n s o s').1 ⟨f, hr⟩
  exact final_unique (h.chain hc) (hv n)

end

/-! ### C75 -/

theorem visible_sub {ws : List Write} {w : Write} (h : w ∈ visible ws) : w ∈ ws := by
  rw [visible] at h
  exact (List.mem_filter.1 h).1

/-- What `Parse` does when the objects of the file are those of `us`. -/
theorem loaded_report {sys : Sys} {file0 : Bytes} {us : List Update} {ext : Ext} {v : Bool} {pw : Bytes} {ls : LS} {F : Nat} (hf : sys.input = some file0) (hc : ∀ h, sys.canCreate h = true)
    (h1 : ∀ f fx, F ≤ f → F ≤ fx → load ⟨file0, ext, some v⟩ sys.order f fx pw LS.init = .ok (none, ls)) (h2 : Loaded us (ls.env ⟨file0, ext, some v⟩)) (hk : KidsEnd us) (hs : StreamsLoad us) :
    ∃ r F, (∀ f fx ft, F ≤ f → F ≤ fx → F ≤ ft → parse sys ext (some v) f fx ft pw = r) ∧ r.outcome = .returned none ∧
      ∀ view, Means us view → ∃ l ws, l.Nodup ∧ (∀ n, n ∈ l ↔ (meant us n).isSome) ∧ Holds r.out ws ∧
        Parts (fun n part => ∃ p, meant us n = some p ∧ ObjectReport ext view p.obj part) l (visible ws) := by
  obtain ⟨view0, hv0, -⟩ := C75_means us
  obtain ⟨_, xs, -, -, G, hG⟩ := extractAll_ranked (env := ls.env ⟨file0, ext, some v⟩) (Deep view0.value) (fun n v => v = view0.value n) (h2.getsAll hv0 hk hs) ⟨1, fun e he => nomatch he⟩ (fun _ h => h) (by
    intro n d hr _ o ho l hl e he
    cases n with
    | zero => cases hr
    | succ n =>
      refine ⟨n, Nat.lt_succ_self _, hr e ?_⟩
      rw [kidsOf, arrayAt, ho]
      rcases hl with rfl | ⟨m, g, rfl, hm⟩
      · exact he
      · show _ ∈ (match view0.value m with | .arr l => l | _ => [])
        rw [← hm]
        exact he) (fun f n s o t ho => (h2.view hv0 f n s o t ho).1) (by intro h; cases h) ls.xref ⟨ls.ps, {}, sys.order.next.next⟩ trivial
  have hok : (createAll sys outputFiles []).2.2 = true := by simp [outputFiles, createAll, hc]
  have hp : ∀ f fx ft, max (max 1 F) G ≤ f → max (max 1 F) G ≤ fx → max (max 1 F) G ≤ ft → parse sys ext (some v) f fx ft pw =
      ⟨.returned none, [.openInput, .removeAll, .mkdirAll] ++ (createAll sys outputFiles []).1 ++ closeAll (createAll sys outputFiles []).2.1 ++ [.close .input], xs.out, xs.ps.log⟩ := by
    intro f fx ft a b c
    have hb : parseBody (file0) sys.order ext (some v) f fx ft pw = .ok (none, xs) := by
      rw [parseBody]
      show (load ⟨file0, ext, some v⟩ sys.order f fx pw LS.init >>= _) = _
      rw [h1 f fx (by omega) (by omega)]
      show (extractAll (ls.env ⟨file0, ext, some v⟩) f ft ls.xref ⟨ls.ps, {}, sys.order.next.next⟩ >>= _) = _
      have := hG ⟨f, fx, ft⟩ (by simp only [Depth.lvl]; omega)
      simp only at this
      rw [this]
      rfl
    rw [parse, hf]
    simp only [hok, if_true]
    rw [hb]
  refine ⟨_, _, hp, rfl, fun view hv => ?_⟩
  have hp0 := hp _ _ _ (Nat.le_refl _) (Nat.le_refl _) (Nat.le_refl _)
  obtain ⟨file, ls', k1, k2, k3⟩ := C67_report hp0 rfl
  rw [hf] at k1
  cases k1
  rw [h1 _ _ (by omega) (by omega)] at k2
  cases k2
  obtain ⟨ws, q1, parts, q2, q3, q4⟩ := k3 view (fun n => match meant us n with | some p => p.obj | none => ⟨n, 0, .null, none⟩) (h2.view hv _) (by
    intro n s o s' hg
    rcases h2.read ⟨_, hg⟩ with ⟨hm, rfl⟩ | ⟨p, hm, rfl⟩
    · simp only [hm]
    · simp only [hm])
  have hmem : ∀ n, n ∈ inUse ls.xref ↔ (meant us n).isSome := by
    intro n
    rw [← h2.inUse n, inUse, List.mem_map]
    constructor
    · rintro ⟨⟨m, e⟩, hm, rfl⟩
      obtain ⟨h3, h4⟩ := List.mem_filter.1 hm
      exact ⟨e, Assoc.get?_of_mem' h2.nodup h3, by simpa using h4⟩
    · rintro ⟨e, he, ht⟩
      exact ⟨(n, e), List.mem_filter.2 ⟨Assoc.mem_of_get? he, by simpa using ht⟩, rfl⟩
  refine ⟨inUse ls.xref, ws, ?_, hmem, q1, parts, q2, fun x hx => ?_, q4⟩
  · exact (List.filter_sublist.map _).nodup h2.nodup
  · have := q3 x hx
    have hn := (hmem x.1).1 (q2.mem_iff.1 (List.mem_map_of_mem hx))
    cases hm : meant us x.1 with
    | none => rw [hm] at hn; cases hn
    | some p => exact ⟨p, hm, by simpa only [hm] using this⟩

/-- **C75, partial** `Parse` returns without an error on a document, and reports on each object that the document means, and on no
other object: on the object as it is meant, with references standing for what they stand for in the document. Missing: encrypted documents and
objects in object streams (`C80_false`); trailer keys taken from objects (`C74_false`); name trees with endless ways down, where the call does not
return (`C22_endless_false`, `C70_false`), and character maps that never end (`C44_terminates_false`); tables that end at the end of the reader's buffer (C55); programs that
do not set `pdf.Verbose` (`C51_false`). -/
theorem C75_partial {sys : Sys} {P : Bytes} {us : List Update} {ext : Ext} {v : Bool} (hf : sys.input = some (docText P us)) (hc : ∀ h, sys.canCreate h = true)
    (hd : Document ext.toCodecs P us) (hr : RightTables (docText P us) P.length us) (henc : trailerFor us b!"Encrypt" = none) (henc' : ∀ d, FirstDict us.tail d → d.get? b!"Encrypt" = none)
    (hk : KidsEnd us) (hs : StreamsLoad us) (pw : Bytes) :
    ∃ r F, (∀ f fx ft, F ≤ f → F ≤ fx → F ≤ ft → parse sys ext (some v) f fx ft pw = r) ∧ r.outcome = .returned none ∧
      ∀ view, Means us view → ∃ l ws, l.Nodup ∧ (∀ n, n ∈ l ↔ (meant us n).isSome) ∧ Holds r.out ws ∧
        Parts (fun n part => ∃ p, meant us n = some p ∧ ObjectReport ext view p.obj part) l (visible ws) := by
  obtain ⟨ls, h1, h2⟩ := document_loaded hd hr henc henc' (some v) sys.order pw
  exact loaded_report hf hc (F := max 1 us.length) (fun f fx a b => h1 f fx (by omega) (by omega)) h2 hk hs

/-- One of the writes is in the report. -/
theorem flatMap_has {ws : List Write} {w : Write} (h : w ∈ ws) (g : Write → Bytes) : ∃ a b, ws.flatMap g = a ++ (g w ++ b) := by
  obtain ⟨x, y, rfl⟩ := List.append_of_mem h
  exact ⟨x.flatMap g, y.flatMap g, by simp⟩

theorem part_has {us : List Update} {ext : Ext} {view : View} {l : List Int} {ws : List Write} (hp : Parts (fun n part => ∃ p, meant us n = some p ∧ ObjectReport ext view p.obj part) l (visible ws))
    {n : Int} (hn : n ∈ l) {p : Part} (hm : meant us n = some p) {d : Dict} (hd : d ∈ dictsOf p.obj) : ∃ part, Reports ext view d part ∧ ∀ w ∈ part, w ∈ ws := by
  obtain ⟨parts, h1, h2, h3⟩ := hp
  obtain ⟨x, hx, rfl⟩ := List.mem_map.1 (h1.mem_iff.2 hn)
  obtain ⟨p', h4, inside, printed, ⟨ps, g1, g2, g3⟩, -, h5⟩ := h2 x hx
  rw [hm] at h4
  cases h4
  obtain ⟨y, hy, rfl⟩ := List.mem_map.1 (g1.mem_iff.2 hd)
  refine ⟨y.2, g2 y hy, fun w hw => visible_sub ?_⟩
  rw [h3]
  refine List.mem_flatMap.2 ⟨x, hx, ?_⟩
  rw [h5, g3]
  exact List.mem_append_left _ (List.mem_flatMap.2 ⟨y, hy, hw⟩)

/-- What `Parse` reports contains the URIs and scripts. -/
theorem report_found {us : List Update} {ext : Ext} {r : ParseResult} (h2 : ∀ view, Means us view → ∃ l ws, l.Nodup ∧ (∀ n, n ∈ l ↔ (meant us n).isSome) ∧ Holds r.out ws ∧
      Parts (fun n part => ∃ p, meant us n = some p ∧ ObjectReport ext view p.obj part) l (visible ws)) : ∀ view, Means us view → ∀ n p, meant us n = some p → ∀ d ∈ dictsOf p.obj,
      (∀ u, view.string d b!"URI" = some u → ∃ a b, r.out.urls = a ++ ((u ++ b!"\n") ++ b)) ∧
      (∀ j, view.string d b!"JS" = some j → ∃ a b, r.out.javascript = a ++ ((j ++ b!"\n") ++ b)) ∧
      (∀ m g j, d.get? b!"JS" = some (.ref m g) → view.stream m = some j → view.string d b!"JS" = none → ∃ a b, r.out.javascript = a ++ ((j ++ b!"\n") ++ b)) := by
  intro view hv n p hm d hdp
  obtain ⟨l, ws, -, h3, h4, h5⟩ := h2 view hv
  obtain ⟨part, ⟨aa, embedded, urls, pages, texts, -, -, -, -, -, rfl⟩, h6⟩ := part_has h5 ((h3 n).2 (by rw [hm]; rfl)) hm hdp
  refine ⟨fun u hu => ?_, fun j hj => ?_, fun m g j hg hj hn => ?_⟩
  · rw [h4.urls]
    exact flatMap_has (w := .url u) (h6 _ (by simp [uriReport, hu])) _
  · rw [h4.javascript]
    exact flatMap_has (w := .js j) (h6 _ (by simp [scriptReport, hj])) _
  · rw [h4.javascript]
    exact flatMap_has (w := .js j) (h6 _ (by simp [scriptReport, hn, View.streamAt, hg, View.streamOf, hj])) _

/-- **C75, partial** Every URI in a document is in urls.txt, with a line break after it; every script is in javascript.js.
Missing: as for `C75_partial`. -/
theorem C75_found_partial {sys : Sys} {P : Bytes} {us : List Update} {ext : Ext} {v : Bool} (hf : sys.input = some (docText P us)) (hc : ∀ h, sys.canCreate h = true)
    (hd : Document ext.toCodecs P us) (hr : RightTables (docText P us) P.length us) (henc : trailerFor us b!"Encrypt" = none) (henc' : ∀ d, FirstDict us.tail d → d.get? b!"Encrypt" = none)
    (hk : KidsEnd us) (hs : StreamsLoad us) (pw : Bytes) :
    ∃ r F, (∀ f fx ft, F ≤ f → F ≤ fx → F ≤ ft → parse sys ext (some v) f fx ft pw = r) ∧ ∀ view, Means us view → ∀ n p, meant us n = some p → ∀ d ∈ dictsOf p.obj,
      (∀ u, view.string d b!"URI" = some u → ∃ a b, r.out.urls = a ++ ((u ++ b!"\n") ++ b)) ∧
      (∀ j, view.string d b!"JS" = some j → ∃ a b, r.out.javascript = a ++ ((j ++ b!"\n") ++ b)) ∧
      (∀ m g j, d.get? b!"JS" = some (.ref m g) → view.stream m = some j → view.string d b!"JS" = none → ∃ a b, r.out.javascript = a ++ ((j ++ b!"\n") ++ b)) := by
  obtain ⟨r, F, h1, -, h2⟩ := C75_partial hf hc hd hr henc henc' hk hs pw
  exact ⟨r, F, h1, report_found h2⟩

theorem revision_parts {us : List Update} {r : Revision} (h : r ∈ revisions us) {p : Part} (hp : p ∈ r.parts) : ∃ u ∈ us, p ∈ u.parts := by
  cases hl : linear us with
  | false =>
    rw [revisions_plain hl] at h
    obtain ⟨u, hu, rfl⟩ := List.mem_map.1 h
    exact ⟨u, hu, hp⟩
  | true =>
    match us, hl, h with
    | u :: v :: us, hl, h =>
      rw [revisions_linear hl] at h
      rcases List.mem_cons.1 h with rfl | h
      · rcases List.mem_append.1 hp with hp | hp
        · exact ⟨u, by simp, hp⟩
        · exact ⟨v, by simp, hp⟩
      · obtain ⟨w, hw, rfl⟩ := List.mem_map.1 h
        exact ⟨w, by simp [hw], hp⟩

theorem meant_part {us : List Update} {n : Int} {p : Part} (h : meant us n = some p) : ∃ u ∈ us, p ∈ u.parts := by
  rw [meant] at h
  cases hf : (revisions us).reverse.find? fun r => (lastFor r.entries n).isSome with
  | none => rw [hf] at h; cases h
  | some r =>
    rw [hf] at h
    refine revision_parts (List.mem_reverse.1 (List.mem_of_find?_eq_some hf)) ?_
    dsimp only at h
    split at h
    · rw [lastWith] at h
      exact List.mem_reverse.1 (List.mem_of_find?_eq_some h)
    · cases h

set_option maxRecDepth 100000 in
/-- The hypotheses of `C75_partial`, for a document with an update. -/
example (ext : Ext) : let us := [update1, update2 b!"New" [1, 6, 6]]
    Document ext.toCodecs docHead us ∧ RightTables (docText docHead us) docHead.length us ∧ trailerFor us b!"Encrypt" = none ∧ (∀ d, FirstDict us.tail d → d.get? b!"Encrypt" = none) ∧ KidsEnd us ∧ StreamsLoad us := by
  refine ⟨updated_document _, (rightTables_plain (by decide)).2 ⟨rightTable_dec (by decide) (by decide), rightTable_dec (by decide) (by decide), trivial⟩, by decide, ?_, ?_, ?_⟩
  · rintro d ⟨v, hv, p, hp, hd⟩
    cases List.mem_singleton.1 hv
    cases hp
    cases hd
    decide
  · refine KidsInPlace.ends fun n p hp d hd m g => ?_
    obtain ⟨u, hu, hpu⟩ := meant_part hp
    simp only [List.mem_cons, List.not_mem_nil, or_false] at hu
    rcases hu with rfl | rfl
    · simp only [update1, List.mem_cons, List.not_mem_nil, or_false] at hpu
      rcases hpu with rfl | rfl
      · simp [dictsIn, dictsInValues] at hd; subst hd; intro h; cases h
      · simp [dictsIn] at hd
    · simp only [update2, List.mem_cons, List.not_mem_nil, or_false] at hpu
      subst hpu
      simp [dictsIn, dictsInValues] at hd; subst hd; intro h; cases h
  · intro n p hp data hd
    obtain ⟨u, hu, hpu⟩ := meant_part hp
    simp only [List.mem_cons, List.not_mem_nil, or_false] at hu
    rcases hu with rfl | rfl
    · simp only [update1, List.mem_cons, List.not_mem_nil, or_false] at hpu
      rcases hpu with rfl | rfl <;> cases hd
    · simp only [update2, List.mem_cons, List.not_mem_nil, or_false] at hpu
      subst hpu; cases hd

end Pdf.Props
