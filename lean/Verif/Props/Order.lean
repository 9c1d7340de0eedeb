import Verif.Lemmas.LoadOrder
import Verif.Props.Main
import Verif.Props.Load
/-!
C49: the report does not depend on the order in which `range` visits maps, up to the order of lines.
-/

namespace Pdf.Props
open Pdf Spec St

theorem linesOf_ended : ∀ (a b : Bytes), (a = [] ∨ a.getLast? = some 10) → linesOf (a ++ b) = linesOf a ++ linesOf b := by
  intro a
  induction a with
  | nil => intro b _; rfl
  | cons x t ih =>
    intro b h
    have hl : (x :: t).getLast? = some 10 := h.resolve_left (by simp)
    by_cases ht : t = []
    · subst ht
      have hx : x = 10 := by simpa using hl
      subst hx
      simp [linesOf]
    · have h2 : t.getLast? = some 10 := by
        obtain ⟨y, u, rfl⟩ := List.exists_cons_of_ne_nil ht
        simpa using hl
      rw [List.cons_append, linesOf, linesOf, ih b (.inr h2)]
      split
      · rfl
      · cases hlt : linesOf t with
        | nil =>
          exfalso
          obtain ⟨y, u, rfl⟩ := List.exists_cons_of_ne_nil ht
          rw [linesOf] at hlt
          split at hlt
          · cases hlt
          · split at hlt <;> cases hlt
        | cons l ls => rfl

theorem linesOf_flatMap {α : Type} (g : α → Bytes) : ∀ ws : List α, (∀ w ∈ ws, g w = [] ∨ (g w).getLast? = some 10) →
    linesOf (ws.flatMap g) = ws.flatMap fun w => linesOf (g w) := by
  intro ws
  induction ws with
  | nil => intro _; rfl
  | cons w t ih =>
    intro h
    rw [List.flatMap_cons, List.flatMap_cons, linesOf_ended _ _ (h w (by simp)), ih fun v hv => h v (by simp [hv])]

theorem lines_perm {g : Write → Bytes} {ws vs : List Write} (hp : ws.Perm vs) (h : ∀ w ∈ ws, g w = [] ∨ (g w).getLast? = some 10) :
    (linesOf (ws.flatMap g)).Perm (linesOf (vs.flatMap g)) := by
  rw [linesOf_flatMap g ws h, linesOf_flatMap g vs fun w hw => h w (hp.mem_iff.2 hw)]
  exact hp.flatMap_right _

theorem ended_nl (b : Bytes) : (b ++ b!"\n").getLast? = some 10 := by simp

theorem dumped_keys {h : Bytes} : ∀ (ws : List Write) (m : Assoc Bytes Bytes),
    (∃ d, (ws.foldl Write.dumpInto m).get? h = some d) ↔ (∃ d, m.get? h = some d) ∨ ∃ d, Write.dump h d ∈ ws := by
  intro ws
  induction ws with
  | nil => intro m; simp
  | cons w t ih =>
    intro m
    rw [List.foldl_cons, ih]
    cases w with
    | dump k d =>
      by_cases hk : k = h
      · subst hk
        constructor
        · intro _; exact .inr ⟨d, by simp⟩
        · intro _; exact .inl ⟨d, Assoc.get?_set_self _ _ _⟩
      · show (∃ d', (m.set k d).get? h = some d') ∨ _ ↔ _
        rw [Assoc.get?_set_ne _ _ hk]
        constructor
        · rintro (h1 | ⟨e, he⟩)
          · exact .inl h1
          · exact .inr ⟨e, by simp [he]⟩
        · rintro (h1 | ⟨e, he⟩)
          · exact .inl h1
          · rcases List.mem_cons.1 he with he | he
            · cases he; exact absurd rfl hk
            · exact .inr ⟨e, he⟩
    | _ => simp [Write.dumpInto]

theorem lines_same {g : Write → Bytes} (hg : ∀ w, g (Write.plain w) = g w) {ws vs : List Write} (hp : (ws.map Write.plain).Perm (vs.map Write.plain))
    (h : ∀ w ∈ ws, g w = [] ∨ (g w).getLast? = some 10) : (linesOf (ws.flatMap g)).Perm (linesOf (vs.flatMap g)) := by
  have hm : ∀ l : List Write, l.flatMap g = (l.map Write.plain).flatMap g := by
    intro l
    rw [List.flatMap_map]
    simp only [hg]
  rw [hm ws, hm vs]
  refine lines_perm hp fun w hw => ?_
  obtain ⟨v, hv, rfl⟩ := List.mem_map.1 hw
  rw [hg]
  exact h v hv

/-- The objects printed. -/
def rawObj : Write → Option IndObj
  | .raw o _ => some o
  | _ => none

theorem printed_of : ∀ ws : List Write, (∀ w ∈ ws, Faithful w) → Printed (ws.filterMap rawObj) (ws.flatMap Write.rawPdf) := by
  intro ws
  induction ws with
  | nil => intro _; exact .nil
  | cons w t ih =>
    intro h
    have h2 := ih fun v hv => h v (by simp [hv])
    cases w with
    | raw o v => exact .cons (h (.raw o v) (by simp)) h2
    | _ => exact h2

theorem rawObj_same {ws vs : List Write} (hp : (ws.map Write.plain).Perm (vs.map Write.plain)) : (ws.filterMap rawObj).Perm (vs.filterMap rawObj) := by
  have hm : ∀ l : List Write, l.filterMap rawObj = (l.map Write.plain).filterMap rawObj := by
    intro l
    rw [List.filterMap_map]
    congr 1
    funext w
    cases w <;> rfl
  rw [hm ws, hm vs]
  exact hp.filterMap _

/-- The same lines in some order, file by file, the same objects in raw.pdf, in some order and each up to
the order of the entries of its dictionaries, and the same names of dumped files. -/
structure SameReport (a b : ParseResult) : Prop where
  outcome : a.outcome = b.outcome
  commands : (linesOf a.out.commands).Perm (linesOf b.out.commands)
  files : (linesOf a.out.files).Perm (linesOf b.out.files)
  javascript : (linesOf a.out.javascript).Perm (linesOf b.out.javascript)
  contents : (linesOf a.out.text).Perm (linesOf b.out.text)
  urls : (linesOf a.out.urls).Perm (linesOf b.out.urls)
  raw : ∃ l l', l.Perm l' ∧ Printed l a.out.raw ∧ Printed l' b.out.raw
  errors : a.errors.Perm b.errors
  names : ∀ h, (∃ d, a.out.dumped.get? h = some d) ↔ ∃ d, b.out.dumped.get? h = some d

/-! ### The loops over maps in `Load` -/

/-- **C49** Merging a section into the cross reference map or a trailer into the trailer gives the same
map whatever the order of the loop (parser.go:268-275, 296-298). -/
theorem C49_load_merge {κ α : Type} [DecidableEq κ] (m : Assoc κ α) {x x' : Assoc κ α} (hp : x.Perm x') (hnd : (x.map (·.1)).Nodup) (k : κ) :
    (m.merge x).get? k = (m.merge x').get? k := by
  rw [Assoc.get?_merge_uniq m hnd, Assoc.get?_merge_uniq m ((hp.map _).nodup_iff.1 hnd), Assoc.get?_perm hp hnd]

example : [((1 : Int), b!"a"), (2, b!"b")].Perm [(2, b!"b"), (1, b!"a")] ∧ ([((1 : Int), b!"a"), (2, b!"b")].map (·.1)).Nodup :=
  ⟨.swap _ _ _, by decide⟩

/-- **C49** Repair gives the same cross reference map whatever the order of the loop over the objects
found by scanning (parser.go:59-70), if the offsets it tests are not negative. -/
theorem C49_load_repair (cfg : Cfg) {objs objs' : Assoc Int XrefEntry} (hp : objs.Perm objs') (hnd : (objs.map (·.1)).Nodup) (s s' : LS)
    (hx : ∀ n, s.xref.get? n = s'.xref.get? n) (hoff : ∀ n e, s.xref.get? n = some e → 0 ≤ e.offset) :
    ∃ t t', repairAll cfg objs s = .ok ((), t) ∧ repairAll cfg objs' s' = .ok ((), t') ∧ ∀ n, t.xref.get? n = t'.xref.get? n := by
  obtain ⟨t, h1, -, -, h2, h3⟩ := repairAll_run cfg objs hnd s
  obtain ⟨t', h1', -, -, h2', h3'⟩ := repairAll_run cfg objs' ((hp.map _).nodup_iff.1 hnd) s'
  refine ⟨t, t', h1, h1', fun n => ?_⟩
  have hg := Assoc.get?_perm hp hnd n
  cases ho : objs.get? n with
  | none => rw [h2 n ho, h2' n (by rw [← hg, ho]), hx]
  | some o =>
    obtain ⟨h4, h5⟩ := h3 n o ho
    obtain ⟨h4', h5'⟩ := h3' n o (by rw [← hg, ho])
    cases he : s.xref.get? n with
    | none => rw [h4 he, h4' (by rw [← hx, he])]
    | some e =>
      obtain ⟨ps, hps⟩ := h5 e he
      obtain ⟨ps', hps'⟩ := h5' e (by rw [← hx, he])
      rw [hps, hps', seek_base (hoff n e he), seek_base (hoff n e he), readObjectHeader_al, readObjectHeader_al]

/-- Loading the cross reference sections of this file leaves no entry with a negative offset. -/
def GoodOffsets (file : Bytes) (ext : Ext) (verbose : Option Bool) (f fx : Nat) : Prop :=
  ∀ s1, SectionsLoaded ⟨file, ext, verbose⟩ f fx LS.init s1 → ∀ n e, s1.xref.get? n = some e → 0 ≤ e.offset

/-- Once this file is loaded, its crypt filters, if any, have their method and length in place. -/
def GoodFilters (file : Bytes) (ext : Ext) (verbose : Option Bool) (f fx : Nat) (password : Bytes) : Prop :=
  ∀ ord err ls, load ⟨file, ext, verbose⟩ ord f fx password LS.init = .ok (err, ls) →
    DirectFilters (fun sh => resolver { ls.env ⟨file, ext, verbose⟩ with sh := sh } f) ls.trailer

theorem repairAll_log (cfg : Cfg) : ∀ (l : List (Int × XrefEntry)) (s t : LS) (u : Unit), repairAll cfg l s = .ok (u, t) → t.ps.log = s.ps.log := by
  intro l
  induction l with
  | nil => intro s t u h; cases h; rfl
  | cons p l ih =>
    intro s t u h
    rw [repairAll] at h
    obtain ⟨⟨⟩, s1, h1, h2⟩ := bind_ok h
    rw [ih _ _ _ h2]
    have hr : ∀ off, (readObjectHeader cfg.file (seek s.ps off)).2.log = s.ps.log := by
      intro off
      refine readObjectHeader_inv (I := fun x => x.log = s.ps.log) ⟨fun h => ?_, fun h => ?_⟩ ?_
      · rw [readByte]
        split <;> exact h
      · rw [unread_log]; exact h
      · rw [seek]; split <;> rfl
    rw [repairOne] at h1
    split at h1
    · dsimp only at h1
      split at h1
      · cases h1; exact hr _
      · cases h1; exact hr _
    · cases h1; rfl

/-- what `Load` makes of an entry before it reads the encryption dictionary -/
def markAt (enc : Obj) (n : Int) (x : Option XrefEntry) : Option XrefEntry :=
  match enc with
  | .ref m _ => if m = n then x.map fun e => { e with isEncrypted := false } else x
  | _ => x

theorem markEncrypt_run (enc : Obj) (s : LS) : ∃ s', markEncrypt enc s = .ok ((), s') ∧ s'.trailer = s.trailer ∧ s'.sh = s.sh ∧ s'.ps = s.ps ∧
    ∀ n, s'.xref.get? n = markAt enc n (s.xref.get? n) := by
  cases enc with
  | ref m g =>
    simp only [markEncrypt, markAt]
    cases he : s.xref.get? m with
    | none =>
      refine ⟨s, rfl, rfl, rfl, rfl, fun n => ?_⟩
      by_cases hm : m = n
      · rw [if_pos hm, ← hm, he]; rfl
      · rw [if_neg hm]
    | some e =>
      refine ⟨_, rfl, rfl, rfl, rfl, fun n => ?_⟩
      by_cases hm : m = n
      · subst hm
        rw [if_pos rfl, he]
        exact Assoc.get?_set_self _ _ _
      · rw [if_neg hm]
        exact Assoc.get?_set_ne _ _ hm
  | _ => exact ⟨s, rfl, rfl, rfl, rfl, fun _ => rfl⟩

/-- the parser after `Load`, with maps compared as maps -/
structure SameLoad (cfg : Cfg) (a b : LS) : Prop where
  env : SameEnv (a.env cfg) (b.env cfg)
  trailer : b.trailer = a.trailer
  log : b.ps.log = a.ps.log

/-- **C49** `Load` returns the same error and leaves the same parser whatever the order of its loops. -/
theorem C49_load {cfg : Cfg} {o1 o2 : Order} {f fx : Nat} {pw : Bytes} {err : Option EncErr} {ls : LS}
    (hoff : GoodOffsets cfg.file cfg.ext cfg.verbose f fx) (hcf : GoodFilters cfg.file cfg.ext cfg.verbose f fx pw)
    (h : load cfg o1 f fx pw LS.init = .ok (err, ls)) :
    ∃ ls', load cfg o2 f fx pw LS.init = .ok (err, ls') ∧ SameLoad cfg ls ls' ∧ NonnegOffsets (ls.env cfg) := by
  have hd := hcf o1 err ls h
  obtain ⟨offs, objs, sa, sb, sp, s1, s3, h1, h2, h3, h4, -, -⟩ := load_stages h
  have hpos := hoff s1 ⟨offs, objs, sp, h2, h3⟩
  obtain ⟨-, f2, f3⟩ := findObjects_found h1
  have v1 := visited o1 objs
  have v2 := visited o2 objs
  have hnd := (v1.map _).nodup_iff.2 f3
  obtain ⟨t, t', g1, g2, g3⟩ := C49_load_repair cfg (v1.trans v2.symm) hnd s1 s1 (fun _ => rfl) hpos
  rw [h4] at g1
  cases g1
  obtain ⟨u, e1, e2, e3, e4, e5⟩ := repairAll_run cfg _ hnd s1
  rw [h4] at e1
  cases e1
  obtain ⟨u', e1', e2', e3', -, -⟩ := repairAll_run cfg _ ((v2.map _).nodup_iff.2 f3) s1
  rw [g2] at e1'
  cases e1'
  have hlog : t'.ps.log = s3.ps.log := by rw [repairAll_log _ _ _ _ _ g2, repairAll_log _ _ _ _ _ h4]
  have hpos3 : ∀ n e, s3.xref.get? n = some e → 0 ≤ e.offset := by
    intro n e he
    cases ho : Assoc.get? (o1.visit objs) n with
    | none => rw [e4 n ho] at he; exact hpos n e he
    | some o =>
      have hoo : 0 ≤ o.offset := by
        obtain ⟨pre, ds, -, -, h5, -⟩ := f2 n o (by rw [Assoc.get?_perm v1.symm f3]; exact ho)
        omega
      obtain ⟨e6, e7⟩ := e5 n o ho
      cases hx : s1.xref.get? n with
      | none => rw [e6 hx] at he; cases he; exact hoo
      | some x =>
        obtain ⟨ps, hps⟩ := e7 x hx
        rw [hps] at he
        cases he
        rw [repaired]
        split
        · exact hoo
        · exact hpos n x hx
  rw [load, loadF, bind_of_ok h2] at h
  rw [load, loadF, bind_of_ok h2]
  dsimp only at h ⊢
  rw [bind_of_ok h3, bind_of_ok h4, bind_of_ok (x := fun s : LS => Res.ok (s.trailer.get? b!"Encrypt", s)) rfl] at h
  rw [bind_of_ok h3, bind_of_ok g2, bind_of_ok (x := fun s : LS => Res.ok (s.trailer.get? b!"Encrypt", s)) rfl]
  rw [show t'.trailer = s3.trailer by rw [e2', e2]]
  cases henc : s3.trailer.get? b!"Encrypt" with
  | none =>
    rw [henc] at h
    cases h
    exact ⟨t', rfl, ⟨⟨rfl, rfl, rfl, g3, by show SameSh _ t'.sh; rw [e3', ← e3]; exact .refl _⟩, by rw [e2', e2], hlog⟩, fun n e he _ => hpos3 n e he⟩
  | some enc =>
    rw [henc] at h
    dsimp only at h ⊢
    obtain ⟨⟨⟩, s5, h5, h6⟩ := bind_ok h
    obtain ⟨m, a1, a2, a3, a4, a5⟩ := markEncrypt_run enc s3
    rw [h5] at a1
    cases a1
    obtain ⟨s5', b1, b2, b3, b4, b5⟩ := markEncrypt_run enc t'
    rw [bind_of_ok b1]
    have hx : ∀ n, s5.xref.get? n = s5'.xref.get? n := fun n => by rw [a5, b5, g3]
    have hnon : ∀ n e, s5.xref.get? n = some e → 0 ≤ e.offset := by
      intro n e he
      rw [a5] at he
      unfold markAt at he
      split at he
      · split at he
        · obtain ⟨x, hx1, rfl⟩ := Option.map_eq_some_iff.1 he
          exact hpos3 n x hx1
        · exact hpos3 n e he
      · exact hpos3 n e he
    rw [setPassword] at h6
    cases hsec : secInit cfg.ext (fun sh => resolver { s5.env cfg with sh := sh } f) o1.next pw s5.trailer s5.sh s5.ps with
    | panic w => rw [hsec] at h6; cases h6
    | oof => rw [hsec] at h6; cases h6
    | ok q =>
      obtain ⟨⟨e, sh'⟩, ps'⟩ := q
      rw [hsec] at h6
      cases h6
      have hnn : ∀ sh, NonnegOffsets { s5.env cfg with sh := sh } := fun sh n e he _ => hnon n e he
      obtain ⟨⟨e'', sh''⟩, ps'', es, c1, ⟨c2, c3⟩, c4, c5⟩ := secInit_both (ext := cfg.ext) (rs := fun sh => resolver { s5.env cfg with sh := sh } f) (fun sh => isFixed_cl (hnn sh) f)
        (fun a b hab => resolver_same (a := { s5.env cfg with sh := a }) (b := { s5.env cfg with sh := b }) ⟨rfl, rfl, rfl, fun _ => rfl, hab⟩ f) o1.next o2.next pw s5.trailer s5.sh hd s5.ps s5'.ps _ _ hsec
      have hrs : (fun sh => resolver { s5'.env cfg with sh := sh } f) = fun sh => resolver { s5.env cfg with sh := sh } f := by
        funext sh
        exact (resolver_same (a := { s5.env cfg with sh := sh }) (b := { s5'.env cfg with sh := sh }) ⟨rfl, rfl, rfl, hx, .refl sh⟩ f).symm
      have htr : s5'.trailer = s5.trailer := by rw [b2, a2, e2', e2]
      have hsh : s5'.sh = s5.sh := by rw [b3, a3, e3', e3]
      refine ⟨{ s5' with sh := sh'', ps := ps'' }, ?_, ⟨⟨rfl, rfl, rfl, hx, c3⟩, htr, ?_⟩, hnn sh'⟩
      · rw [setPassword, hrs, htr, hsh, c1]
        show Res.ok (e'', _) = _
        rw [show e'' = e from c2]
      · show ps''.log = ps'.log
        rw [c5, c4, b4, a4, hlog]

/-- **C49** Up to the order of lines, the report of `Parse` is the same whatever the order in which
`range` visits the maps: every file has the same lines, the same files are dumped, the same errors are
logged. Restricted to files whose sections leave no negative offset in the cross reference (see
`C49_false`) and whose crypt filters have their method and length in place. Not covered: the order in
which sections are merged, which `C49_load_merge` shows to be unobservable. -/
theorem C49_partial {file : Bytes} (sys : Sys) (hf : sys.input = some file) (o1 o2 : Order) (ext : Ext) (verbose : Option Bool) (f fx ft : Nat) (password : Bytes)
    (hoff : GoodOffsets file ext verbose f fx) (hcf : GoodFilters file ext verbose f fx password) {err : Option EncErr}
    (h1 : (parse { sys with order := o1 } ext verbose f fx ft password).outcome = .returned err) :
    SameReport (parse { sys with order := o1 } ext verbose f fx ft password) (parse { sys with order := o2 } ext verbose f fx ft password) := by
  obtain ⟨input, canCreate, outExists, order⟩ := sys
  replace hf : input = some file := hf
  subst hf
  generalize hsys : (⟨some file, canCreate, outExists, order⟩ : Sys) = sys at h1 ⊢
  have hf : sys.input = some file := by rw [← hsys]
  have hc : ∀ o, createAll { sys with order := o } outputFiles [] = createAll sys outputFiles [] := by
    intro o
    have : ∀ l opened, createAll { sys with order := o } l opened = createAll sys l opened := by
      intro l
      induction l with
      | nil => intro opened; rfl
      | cons h t ih => intro opened; simp only [createAll, ih]
    exact this _ _
  have hp : ∀ o, parse { sys with order := o } ext verbose f fx ft password =
      (if (createAll sys outputFiles []).2.2 then
        match parseBody file o ext verbose f fx ft password with
        | .ok (err, xs) => ⟨.returned err, [.openInput, .removeAll, .mkdirAll] ++ (createAll sys outputFiles []).1 ++ closeAll (createAll sys outputFiles []).2.1 ++ [.close .input], xs.out, xs.ps.log⟩
        | .panic w => ⟨.panicked w, [.openInput, .removeAll, .mkdirAll] ++ (createAll sys outputFiles []).1 ++ closeAll (createAll sys outputFiles []).2.1 ++ [.close .input], {}, []⟩
        | .oof => ⟨.diverged, [.openInput, .removeAll, .mkdirAll] ++ (createAll sys outputFiles []).1, {}, []⟩
      else ⟨.createFailed, [.openInput, .removeAll, .mkdirAll] ++ (createAll sys outputFiles []).1 ++ closeAll (createAll sys outputFiles []).2.1 ++ [.close .input], {}, []⟩) := by
    intro o
    rw [parse]
    rw [← hsys] at hc ⊢
    simp only [hc o]
    rfl
  rw [hp o1] at h1 ⊢
  rw [hp o2]
  cases hok : (createAll sys outputFiles []).2.2 with
  | false => rw [hok, if_neg (by simp)] at h1; cases h1
  | true =>
    rw [hok, if_pos rfl] at h1
    rw [if_pos rfl, if_pos rfl]
    cases hv : debug verbose with
    | panic w => simp only [parseBody, hv] at h1; cases h1
    | oof => simp only [parseBody, hv] at h1; cases h1
    | ok u =>
      cases hl : load ⟨file, ext, verbose⟩ o1 f fx password LS.init with
      | panic w => simp only [parseBody, hv, Bind.bind, Res.bind, hl] at h1; cases h1
      | oof => simp only [parseBody, hv, Bind.bind, Res.bind, hl] at h1; cases h1
      | ok p =>
        obtain ⟨e, ls⟩ := p
        obtain ⟨ls', hl', hsame, hnn⟩ := C49_load (cfg := ⟨file, ext, verbose⟩) (o2 := o2) hoff hcf hl
        cases e with
        | some e =>
          have hb1 : parseBody file o1 ext verbose f fx ft password = .ok (some e, ⟨ls.ps, {}, o1.next.next⟩) := by
            simp only [parseBody, hv, Bind.bind, Res.bind, hl]
          have hb2 : parseBody file o2 ext verbose f fx ft password = .ok (some e, ⟨ls'.ps, {}, o2.next.next⟩) := by
            simp only [parseBody, hv, Bind.bind, Res.bind, hl']
          rw [hb1, hb2]
          exact ⟨rfl, .refl _, .refl _, .refl _, .refl _, .refl _, ⟨[], [], .nil, .nil, .nil⟩, .of_eq hsame.log.symm, fun _ => Iff.rfl⟩
        | none =>
          have hb1 : parseBody file o1 ext verbose f fx ft password =
              (extractAll (ls.env ⟨file, ext, verbose⟩) f ft ls.xref ⟨ls.ps, {}, o1.next.next⟩ >>= fun p => .ok (none, p.2)) := by
            simp only [parseBody, hv, Bind.bind, Res.bind, hl]
          have hb2 : parseBody file o2 ext verbose f fx ft password =
              (extractAll (ls.env ⟨file, ext, verbose⟩) f ft ls'.xref ⟨ls'.ps, {}, o2.next.next⟩ >>= fun p => .ok (none, p.2)) := by
            simp only [parseBody, hv, Bind.bind, Res.bind, hl', extractAll_same hsame.env]
          rw [hb1] at h1 ⊢
          rw [hb2]
          obtain ⟨r, hr⟩ := extractAll_steady hnn f ft ls.xref
          have hr' := hr ls'.xref (Assoc.perm_of_get? (load_keys hl') (load_keys hl) fun k => (hsame.env.xref k).symm)
          replace hr := hr ls.xref (.refl _)
          cases r with
          | none =>
            exfalso
            cases hx : extractAll (ls.env ⟨file, ext, verbose⟩) f ft ls.xref ⟨ls.ps, {}, o1.next.next⟩ with
            | ok p => exact hr _ _ hx
            | panic w => rw [hx] at h1; cases h1
            | oof => rw [hx] at h1; cases h1
          | some q =>
            obtain ⟨u, ws⟩ := q
            obtain ⟨he, hrun⟩ := hr
            obtain ⟨s1, v1, hx1, hp1, hw1⟩ := hrun ⟨ls.ps, {}, o1.next.next⟩
            obtain ⟨s2, v2, hx2, hp2, hw2⟩ := hr'.2 ⟨ls'.ps, {}, o2.next.next⟩
            rw [hx1, hx2]
            have hperm : (v1.map Write.plain).Perm (v2.map Write.plain) := hp1.2.trans hp2.2.symm
            have he1 : ∀ w ∈ v1, Ended w := by
              intro w hw
              obtain ⟨v, hv, hvw⟩ := List.mem_map.1 (hp1.2.mem_iff.1 (List.mem_map.2 ⟨w, hw, rfl⟩))
              have := he v hv
              cases w with
              | text b => cases v <;> cases hvw <;> exact this
              | _ => trivial
            refine ⟨rfl, ?_, ?_, ?_, ?_, ?_, ?_, ?_, ?_⟩
            · show (linesOf s1.out.commands).Perm (linesOf s2.out.commands)
              rw [hw1.commands, hw2.commands]
              exact lines_same (by intro w; cases w <;> rfl) hperm fun w _ => by cases w <;> first | exact .inl rfl | exact .inr (ended_nl _)
            · show (linesOf s1.out.files).Perm (linesOf s2.out.files)
              rw [hw1.files, hw2.files]
              exact lines_same (by intro w; cases w <;> rfl) hperm fun w _ => by cases w <;> first | exact .inl rfl | exact .inr (ended_nl _)
            · show (linesOf s1.out.javascript).Perm (linesOf s2.out.javascript)
              rw [hw1.javascript, hw2.javascript]
              exact lines_same (by intro w; cases w <;> rfl) hperm fun w _ => by cases w <;> first | exact .inl rfl | exact .inr (ended_nl _)
            · show (linesOf s1.out.text).Perm (linesOf s2.out.text)
              rw [hw1.text, hw2.text]
              refine lines_same (by intro w; cases w <;> rfl) hperm fun w hw => ?_
              have := he1 w hw
              cases w with
              | text b => exact this
              | _ => exact .inl rfl
            · show (linesOf s1.out.urls).Perm (linesOf s2.out.urls)
              rw [hw1.urls, hw2.urls]
              exact lines_same (by intro w; cases w <;> rfl) hperm fun w _ => by cases w <;> first | exact .inl rfl | exact .inr (ended_nl _)
            · refine ⟨_, _, rawObj_same hperm, ?_, ?_⟩
              · show Printed _ s1.out.raw
                rw [hw1.raw]
                exact printed_of v1 hp1.1
              · show Printed _ s2.out.raw
                rw [hw2.raw]
                exact printed_of v2 hp2.1
            · show s1.ps.log.Perm s2.ps.log
              rw [hw1.errors, hw2.errors]
              show (ls.ps.log ++ _).Perm (ls'.ps.log ++ _)
              rw [hsame.log]
              have hm : ∀ l : List Write, l.flatMap Write.errorsTxt = (l.map Write.plain).flatMap Write.errorsTxt := by
                intro l
                rw [List.flatMap_map]
                congr 1
                funext w
                cases w <;> rfl
              rw [hm v1, hm v2]
              exact (hperm.flatMap_right _).append_left _
            · intro h
              show (∃ d, s1.out.dumped.get? h = some d) ↔ ∃ d, s2.out.dumped.get? h = some d
              rw [hw1.dumped, hw2.dumped, dumped_keys, dumped_keys]
              have hm : ∀ (l : List Write) d, Write.dump h d ∈ l ↔ Write.dump h d ∈ l.map Write.plain := by
                intro l d
                rw [List.mem_map]
                constructor
                · intro hd; exact ⟨_, hd, rfl⟩
                · rintro ⟨w, hw, hp⟩
                  cases w <;> cases hp
                  exact hw
              simp only [hm v1, hm v2, hperm.mem_iff]

/-- **C49** The contents of a dumped file are the same too, unless two different dumped files have the
same MD5. -/
theorem C49_contents (sys : Sys) (o1 o2 : Order) (ext : Ext) (verbose : Option Bool) (f fx ft : Nat) (password : Bytes) {h d1 d2 : Bytes}
    (h1 : (parse { sys with order := o1 } ext verbose f fx ft password).out.dumped.get? h = some d1)
    (h2 : (parse { sys with order := o2 } ext verbose f fx ft password).out.dumped.get? h = some d2) :
    h = hexText (ext.md5 d1) ∧ h = hexText (ext.md5 d2) :=
  ⟨(C54_parse { sys with order := o1 } ext verbose f fx ft password).1 h d1 h1,
    (C54_parse { sys with order := o2 } ext verbose f fx ft password).1 h d2 h2⟩

theorem goodOffsets_of {file : Bytes} {ext : Ext} {verbose : Option Bool} {f fx : Nat}
    (h : (match loadPlan ⟨file, ext, verbose⟩ (fun env => resolver env f) LS.init >>= fun p =>
        loadAll ⟨file, ext, verbose⟩ (fun env => getObject env f) (fun env => resolver env f) fx p.1.1 p.2 with
      | .ok (_, ls) => ls.xref.all fun p => decide (0 ≤ p.2.offset)
      | _ => true) = true) : GoodOffsets file ext verbose f fx := by
  rintro s1 ⟨offs, objs, sp, h1, h2⟩ n e he
  rw [h1] at h
  simp only [Bind.bind, Res.bind, h2] at h
  have := List.all_eq_true.1 h _ (Assoc.get?_some_mem he)
  simpa using this

theorem goodFilters_of {file : Bytes} {ext : Ext} {verbose : Option Bool} {f fx : Nat} {password : Bytes}
    (h : (match loadPlan ⟨file, ext, verbose⟩ (fun env => resolver env f) LS.init >>= fun p =>
        loadAll ⟨file, ext, verbose⟩ (fun env => getObject env f) (fun env => resolver env f) fx p.1.1 p.2 with
      | .ok (_, ls) => (ls.trailer.get? b!"Encrypt").isNone
      | _ => true) = true) : GoodFilters file ext verbose f fx password := by
  intro ord err ls hl sh s enc s' sh1 s1 cf s1' he
  obtain ⟨offs, objs, sa, sb, sp, s1, s3, h1, h2, h3, h4, -, h5⟩ := load_stages hl
  obtain ⟨-, -, f3⟩ := findObjects_found h1
  obtain ⟨u, e1, e2, -⟩ := repairAll_run ⟨file, ext, verbose⟩ (ord.visit objs) (((visited ord objs).map _).nodup_iff.2 f3) s1
  rw [h4] at e1
  cases e1
  rw [h2] at h
  simp only [Bind.bind, Res.bind, h3] at h
  rw [Dict.getDict_none (k := b!"Encrypt") s (by rw [h5, e2]; simpa using h)] at he
  cases he

/-- a file with two objects and a URI, a script and an action in each -/
def orderFile : Bytes := b!"1 0 obj<</URI(a)/AA<</X<</F(c)>>/Y<</F(d)>>>>/K[<</JS(b)>>]>>endobj 2 0 obj<</URI(e)>>endobj"

/-- The hypotheses of `C49_partial` for that file. -/
example : GoodOffsets orderFile Concrete.ext (some false) 2 2 := goodOffsets_of (by decide +kernel)
/-- a trailer with two crypt filters -/
example (rs : SecHandler → Resolver) : DirectFilters rs [(b!"Encrypt", .dict [(b!"V", .num (.ofInt 4)),
    (b!"CF", .dict [(b!"A", .dict [(b!"CFM", .name b!"V2"), (b!"Length", .num (.ofInt 16))]), (b!"B", .dict [(b!"CFM", .name b!"AESV2")])])])] := by
  intro sh s enc s' sh1 s1 cf s1' h1 h2
  rw [Dict.getDict_direct s rfl (by intro n g h; cases h)] at h1
  cases h1
  rw [Dict.getDict_direct s1 rfl (by intro n g h; cases h)] at h2
  cases h2
  refine ⟨by decide, fun k d hm n g => ?_⟩
  simp only [List.mem_cons, List.not_mem_nil, or_false, Prod.mk.injEq, Obj.dict.injEq] at hm
  rcases hm with ⟨-, rfl⟩ | ⟨-, rfl⟩ <;> exact ⟨fun h => by simp [Assoc.get?] at h, fun h => by simp [Assoc.get?] at h⟩
example : GoodFilters orderFile Concrete.ext (some false) 2 2 [] := goodFilters_of (by decide +kernel)
example : (parse ⟨some orderFile, fun _ => true, false, default⟩ Concrete.ext (some false) 2 2 2 []).outcome = .returned none ∧
    linesOf (parse ⟨some orderFile, fun _ => true, false, default⟩ Concrete.ext (some false) 2 2 2 []).out.urls = [b!"a", b!"e"] := by decide +kernel

/-! A file where the order matters: the offset of object 2 is out of range, so the seek fails and the
object is read at the end of the buffer that reading the previous object has filled. -/

/-- two objects and a table with an offset that overflows -/
def wildHead : Bytes := b!"1 0 obj<</URI(a)>>endobj 3 0 obj null endobj xref\n1 2\n0 0 n\n18446744073709551615 0 n\ntrailer<<>>"

/-- the same, with something that can be read as an object at position 4096 -/
def wildFile : Bytes := wildHead ++ List.replicate (4096 - wildHead.length) 32 ++ b!"2 0 x<</URI(b)>>"

/-- from last to first -/
def backwards : Order := ⟨fun _ n => (List.range n).reverse, fun _ _ => List.reverse_perm _⟩

/-- the file in an empty directory -/
def wildSys : Sys := ⟨some wildFile, fun _ => true, false, default⟩

set_option maxRecDepth 100000 in
theorem wild_forwards : ((parse { wildSys with order := default } Concrete.ext (some false) 2 2 2 []).outcome,
    linesOf (parse { wildSys with order := default } Concrete.ext (some false) 2 2 2 []).out.urls) = (.returned none, [b!"a", b!"b"]) := by decide +kernel

set_option maxRecDepth 100000 in
theorem wild_backwards : ((parse { wildSys with order := backwards } Concrete.ext (some false) 2 2 2 []).outcome,
    linesOf (parse { wildSys with order := backwards } Concrete.ext (some false) 2 2 2 []).out.urls) = (.returned none, [b!"a"]) := by decide +kernel

/-- **C49** fails in general: here the URLs found depend on the order. -/
theorem C49_false : ∃ (sys : Sys) (o1 o2 : Order),
    (parse { sys with order := o1 } Concrete.ext (some false) 2 2 2 []).outcome = .returned none ∧
    (parse { sys with order := o2 } Concrete.ext (some false) 2 2 2 []).outcome = .returned none ∧
    linesOf (parse { sys with order := o1 } Concrete.ext (some false) 2 2 2 []).out.urls = [b!"a", b!"b"] ∧
    linesOf (parse { sys with order := o2 } Concrete.ext (some false) 2 2 2 []).out.urls = [b!"a"] := by
  have h1 := wild_forwards
  have h2 := wild_backwards
  refine ⟨wildSys, default, backwards, ?_⟩
  generalize parse { wildSys with order := default } Concrete.ext (some false) 2 2 2 [] = r1 at h1 ⊢
  generalize parse { wildSys with order := backwards } Concrete.ext (some false) 2 2 2 [] = r2 at h2 ⊢
  exact ⟨(Prod.mk.inj h1).1, (Prod.mk.inj h2).1, (Prod.mk.inj h1).2, (Prod.mk.inj h2).2⟩

end Pdf.Props
