import Verif.Lemmas.AsInt
import Verif.Lemmas.Resolve
import Verif.Props.IndObj
/-!
References, typed access to dictionaries and arrays, termination of `GetObject`, filter chains:
C14, C15, C16, C17, C20, C33 (and C34 for `DecodeStream`).
-/

namespace Pdf.Props
open Pdf Spec St

/-! ### C14 -/

/-- **C14** Resolving a reference leaves the current offset where it was. -/
theorem C14_offset (env : Env) (f : Nat) (n : Int) {s s' : PS} {o : IndObj} (h : resolver env f n s = .ok (o, s')) :
    currentOffset s' = currentOffset s ∧ env.file.drop s'.pos = env.file.drop s.pos := by
  rw [resolver, keepOffset] at h
  cases hx : resolve env f [] n s with
  | ok p =>
    rw [hx] at h
    cases h
    have hc : ∀ t : PS, currentOffset t = t.pos := fun t => by rw [currentOffset]; omega
    have hp : (seek p.2 (currentOffset s)).pos = s.pos := by
      rw [hc, seek, if_neg (by omega)]; simp
    exact ⟨by rw [hc, hp, hc], by rw [hp]⟩
  | panic w => rw [hx] at h; cases h
  | oof => rw [hx] at h; cases h

/-- **C14** What is read next is the same as if no reference had been resolved. -/
theorem C14_next_object (env : Env) (f : Nat) (n : Int) {s s' : PS} {o : IndObj} (h : resolver env f n s = .ok (o, s'))
    {dec : Bytes → Res Bytes} (hdec : ∀ b, dec b ≠ .oof) : SameBut 0 s s' (readObj env.file dec s) (readObj env.file dec s') :=
  C57_object_unread_only hdec (C14_offset env f n h).2.symm

/-- **C14** The same for every access to a dictionary or array entry. -/
theorem C14_getters (env : Env) (f : Nat) (d : Dict) (k : Bytes) (a : List Obj) (i : Int) {s s' : PS} :
    (∀ v, Dict.getObject (resolver env f) d k s = .ok (v, s') → currentOffset s' = currentOffset s) ∧
    (∀ v, Arr.getObject (resolver env f) a i s = .ok (v, s') → currentOffset s' = currentOffset s) ∧
    (∀ v, Dict.getStream (resolver env f) d k s = .ok (v, s') → currentOffset s' = currentOffset s) ∧
    (∀ v, Arr.getStream (resolver env f) a i s = .ok (v, s') → currentOffset s' = currentOffset s) := by
  have hR : Pre (fun s s' : PS => currentOffset s' = currentOffset s) := ⟨fun _ => rfl, fun h h' => h'.trans h⟩
  have hr : ∀ n, Pres (fun s s' : PS => currentOffset s' = currentOffset s) (resolver env f n) := fun n s o s' h => (C14_offset env f n h).1
  have hd : ∀ o, Pres (fun s s' : PS => currentOffset s' = currentOffset s) (deref (resolver env f) o) := by
    intro o
    cases o with
    | ref n g => exact Pres.bind hR (hr n) fun _ => Pres.pure hR _
    | _ => exact Pres.pure hR _
  refine ⟨fun v h => ?_, fun v h => ?_, fun v h => ?_, fun v h => ?_⟩
  · refine (?_ : Pres (fun s s' : PS => currentOffset s' = currentOffset s) (Dict.getObject (resolver env f) d k)) s v s' h
    rw [Dict.getObject]
    split
    · exact Pres.bind hR (hd _) fun _ => Pres.pure hR _
    · exact Pres.pure hR _
  · refine (?_ : Pres (fun s s' : PS => currentOffset s' = currentOffset s) (Arr.getObject (resolver env f) a i)) s v s' h
    rw [Arr.getObject]
    split
    · exact Pres.pure hR _
    · split
      · exact Pres.bind hR (hd _) fun _ => Pres.pure hR _
      · exact Pres.pure hR _
  · refine (?_ : Pres (fun s s' : PS => currentOffset s' = currentOffset s) (Dict.getStream (resolver env f) d k)) s v s' h
    rw [Dict.getStream.eq_def]
    split
    · exact Pres.bind hR (hr _) fun _ => Pres.pure hR _
    · exact Pres.pure hR _
  · refine (?_ : Pres (fun s s' : PS => currentOffset s' = currentOffset s) (Arr.getStream (resolver env f) a i)) s v s' h
    rw [Arr.getStream.eq_def]
    split
    · exact Pres.pure hR _
    · split
      · exact Pres.bind hR (hr _) fun _ => Pres.pure hR _
      · exact Pres.pure hR _

/-- A resolution that does read the file. -/
example (ext : Ext) (sh : SecHandler) (s : PS) : ∃ s', resolver (twoEnv ext sh) 1 1 s = .ok (⟨1, 0, .str b!"a", none⟩, s') := by
  obtain ⟨s', h, -⟩ := two_plain ext sh 0 s
  refine ⟨seek s' (currentOffset s), ?_⟩
  rw [resolver, keepOffset, resolve_succ, if_neg (by simp), bind_of_ok h]
  rfl

/-! ### C16 -/

/-- **C16** A number without an entry, or with one that is not of the in-use type, is null; the file is
not read and the reader does not move. -/
theorem C16_null (env : Env) (f : Nat) (n : Int) (h : ∀ e, env.xref.get? n = some e → e.typ ≠ 1) (s : PS) :
    getObject env f n s = .ok (⟨n, 0, .null, none⟩, s) := by
  rw [getObject_missing h]; rfl

example : ∀ (e : XrefEntry), Assoc.get? ([(4, ⟨0, 65535, 0, true, false⟩), (6, ⟨5, 0, 2, true, false⟩)] : Assoc Int XrefEntry) 6 = some e → e.typ ≠ 1 := by
  rintro e ⟨⟩; decide

/-! ### C15 -/

/-- **C15** Resolving is following the chain of references, starting with nothing visited, and then
going back to where the reader was. -/
theorem C15_chain (env : Env) (n : Int) (s : PS) (o : IndObj) (t : PS) :
    Resolves env n s o t ↔ ∃ s', Chain env [] n s o s' ∧ t = seek s' (currentOffset s) := by
  constructor
  · rintro ⟨f, h⟩
    rw [resolver, keepOffset] at h
    cases hx : resolve env f [] n s with
    | ok p =>
      rw [hx] at h
      cases h
      exact ⟨p.2, chain_of_resolve hx, rfl⟩
    | panic w => rw [hx] at h; cases h
    | oof => rw [hx] at h; cases h
  · rintro ⟨s', h, rfl⟩
    obtain ⟨f, hf⟩ := resolve_of_chain h
    exact ⟨f, by rw [resolver, keepOffset, hf]; rfl⟩

/-- **C15** The result is never a reference. -/
theorem C15_not_reference {env : Env} {n : Int} {s t : PS} {o : IndObj} (h : Resolves env n s o t) (m g : Int) : o.value ≠ .ref m g := by
  obtain ⟨s', hc, -⟩ := (C15_chain env n s o t).1 h
  clear h
  generalize ([] : List Int) = v at hc
  induction hc with
  | seen _ => intro h; cases h
  | stop _ _ h => exact h m g
  | next _ _ _ _ ih => exact ih

/-- Objects each of which is a reference to the next, the last one not being a reference. -/
inductive Path (env : Env) : List Int → PS → IndObj → PS → Prop
  | last {n s o s'} : Gets env n s o s' → (∀ m g, o.value ≠ .ref m g) → Path env [n] s o s'
  | cons {n s i s1 m g l o s'} : Gets env n s i s1 → i.value = .ref m g → Path env (m :: l) s1 o s' → Path env (n :: m :: l) s o s'

theorem chain_of_path {env : Env} {l : List Int} {s : PS} {o : IndObj} {s' : PS} (h : Path env l s o s') :
    ∀ v, l.Nodup → (∀ n ∈ l, n ∉ v) → ∀ n, l.head? = some n → Chain env v n s o s' := by
  induction h with
  | last hg hv =>
    intro v _ hd n hn
    cases hn
    exact .stop (hd _ (by simp)) hg hv
  | cons hg hv _ ih =>
    intro v hnd hd n hn
    cases hn
    refine .next (hd _ (by simp)) hg hv (ih _ (List.nodup_cons.1 hnd).2 ?_ _ rfl)
    intro k hk hkv
    rcases List.mem_cons.1 hkv with rfl | hkv
    · exact (List.nodup_cons.1 hnd).1 hk
    · exact hd k (by simp [hk]) hkv

/-- **C15** A chain of distinct references `n, n₁, ..., nₖ` that ends in an object which is not a
reference resolves to that object, however long it is. -/
theorem C15_path {env : Env} {n : Int} {l : List Int} {s : PS} {o : IndObj} {s' : PS} (hl : (n :: l).Nodup) (h : Path env (n :: l) s o s') :
    ∃ t, Resolves env n s o t :=
  ⟨_, (C15_chain env n s o _).2 ⟨s', chain_of_path h [] hl (by simp) n rfl, rfl⟩⟩

/-- **C15** If every object reached is a reference to another one of the set, the result is null, with
no stream: cycles of every shape, with or without a tail leading into them. -/
theorem C15_cycle {env : Env} {C : Int → Prop}
    (h : ∀ n, C n → ∀ s, ∃ o s' m g, Gets env n s o s' ∧ o.value = .ref m g ∧ C m) {n : Int} (hn : C n) (s : PS) :
    ∃ o t, Resolves env n s o t ∧ o.value = .null ∧ o.stream = none := by
  have key : ∀ k v n s, (fresh env v).length ≤ k → C n → ∃ m s', Chain env v n s (newIndObj m) s' := by
    intro k
    induction k with
    | zero =>
      intro v n s hk hn
      by_cases hv : n ∈ v
      · exact ⟨n, s, .seen hv⟩
      · obtain ⟨o, s', m, g, hg, hv', -⟩ := h n hn s
        have := fresh_lt (mem_keys_of_gets_ref hg hv') hv
        omega
    | succ k ih =>
      intro v n s hk hn
      by_cases hv : n ∈ v
      · exact ⟨n, s, .seen hv⟩
      · obtain ⟨o, s', m, g, hg, hv', hm⟩ := h n hn s
        have := fresh_lt (mem_keys_of_gets_ref hg hv') hv
        obtain ⟨m', s'', hc⟩ := ih (n :: v) m s' (by omega) hm
        exact ⟨m', s'', .next hv hg hv' hc⟩
  obtain ⟨m, s', hc⟩ := key _ [] n s (Nat.le_refl _) hn
  exact ⟨_, _, (C15_chain env n s _ _).2 ⟨s', hc, rfl⟩, rfl, rfl⟩

/-- **C15** Following references never loops: it returns (or panics) whenever `GetObject` does. -/
theorem C15_terminates {env : Env} (h : ∀ n s, ∃ f, getObject env f n s ≠ .oof) (n : Int) (s : PS) : ∃ f, resolver env f n s ≠ .oof := by
  have key : ∀ k v n s, (fresh env v).length ≤ k → ∃ f, resolve env f v n s ≠ .oof := by
    intro k
    induction k with
    | zero =>
      intro v n s hk
      by_cases hv : n ∈ v
      · exact ⟨1, by rw [resolve_succ, if_pos hv]; exact Res.ok_ne_oof⟩
      · obtain ⟨f, hf⟩ := h n s
        refine ⟨f + 1, ?_⟩
        rw [resolve_succ, if_neg hv]
        cases hg : getObject env f n s with
        | oof => exact absurd hg hf
        | panic w => rw [bind_of_panic hg]; exact Res.panic_ne_oof
        | ok p =>
          rw [bind_of_ok (a := p.1) (t := p.2) hg]
          cases hp : p.1.value with
          | ref m g =>
            have := fresh_lt (mem_keys_of_gets_ref ⟨f, hg⟩ hp) hv
            omega
          | _ => exact Res.ok_ne_oof
    | succ k ih =>
      intro v n s hk
      by_cases hv : n ∈ v
      · exact ⟨1, by rw [resolve_succ, if_pos hv]; exact Res.ok_ne_oof⟩
      · obtain ⟨f, hf⟩ := h n s
        cases hg : getObject env f n s with
        | oof => exact absurd hg hf
        | panic w => exact ⟨f + 1, by rw [resolve_succ, if_neg hv, bind_of_panic hg]; exact Res.panic_ne_oof⟩
        | ok p =>
          cases hp : p.1.value with
          | ref m g =>
            have := fresh_lt (mem_keys_of_gets_ref ⟨f, hg⟩ hp) hv
            obtain ⟨f', hf'⟩ := ih (n :: v) m p.2 (by omega)
            refine ⟨max f f' + 1, ?_⟩
            rw [resolve_succ, if_neg hv, bind_of_ok (a := p.1) (t := p.2) (getObject_mono (Nat.le_max_left _ _) hg), hp]
            dsimp only
            rw [(resolve_le env (Nat.le_max_right f f') (n :: v) m).ne_oof hf']
            exact hf'
          | _ =>
            refine ⟨f + 1, ?_⟩
            rw [resolve_succ, if_neg hv, bind_of_ok (a := p.1) (t := p.2) hg, hp]
            exact Res.ok_ne_oof
  obtain ⟨f, hf⟩ := key _ [] n s (Nat.le_refl _)
  refine ⟨f, ?_⟩
  rw [resolver, keepOffset]
  cases hx : resolve env f [] n s with
  | ok p => exact Res.ok_ne_oof
  | panic w => exact Res.panic_ne_oof
  | oof => exact absurd hx hf

/-- Two objects that refer to each other, and a third that refers to the first. -/
def cycleEnv (ext : Ext) (sh : SecHandler) : Env :=
  ⟨b!"1 0 obj 2 0 R 2 0 obj 1 0 R 3 0 obj 1 0 R ", [(1, ⟨0, 0, 1, false, false⟩), (2, ⟨14, 0, 1, false, false⟩), (3, ⟨28, 0, 1, false, false⟩)], sh, ext, some false⟩

theorem ref_text {b : Nat} (hb : b < 10) {r : Bytes} (hr : Stops r) : ObjAt (.ref b 0) ([decDigit b] ++ b!" 0 R") r [] := by
  have := ObjAt.ref (ds := [b]) (w := b!" ") (gs := [0]) (w' := b!" ") (r := r) (by simpa using hb) (by simp) (by simp [decVal]; omega)
    (.ws (by decide) .nil) (by decide) (by decide) (by decide) (by decide) (.ws (by decide) .nil) (by decide) hr
  simpa [decVal, show decDigit 0 = 48 from rfl] using this

theorem digit_header {a : Nat} (ha : a < 10) : HeaderText [a] [0] ([decDigit a] ++ b!" 0 obj") :=
  .mk (w := []) (ds := [a]) (w1 := b!" ") (gs := [0]) (w2 := b!" ") .nil (by simpa using ha) (by simp) (.ws (by decide) .nil) (by decide) (by decide) (by decide) (.ws (by decide) .nil)

/-- `GetObject` on `a 0 obj b 0 R`. -/
theorem gets_ref {env : Env} {n : Int} {e : XrefEntry} {a b : Nat} {r : Bytes} (ha : a < 10) (hb : b < 10) (he : e.isEncrypted = false)
    (hx : InUse env n e (([decDigit a] ++ b!" 0 obj") ++ (b!" " ++ (([decDigit b] ++ b!" 0 R") ++ r)))) (hr : Stops r) (hs : ¬ StreamNext r) (s : PS) :
    ∃ s', Gets env n s ⟨n, e.generation, .ref b 0, none⟩ s' := by
  have h := C58_object hx (digit_header ha) (.ws (by decide) .nil) (by rintro c t ⟨⟩; decide) (ref_text hb hr) hs (g := fun b => b)
    (fun b => by rw [stringDec, he]; rfl) 0 s
  obtain ⟨s', h, -⟩ := h
  exact ⟨s', 0, by simpa [mapStr] using h⟩

theorem cycle_objects (ext : Ext) (sh : SecHandler) (s : PS) :
    (∃ s', Gets (cycleEnv ext sh) 1 s ⟨1, 0, .ref 2 0, none⟩ s') ∧ (∃ s', Gets (cycleEnv ext sh) 2 s ⟨2, 0, .ref 1 0, none⟩ s') ∧
      (∃ s', Gets (cycleEnv ext sh) 3 s ⟨3, 0, .ref 1 0, none⟩ s') := by
  refine ⟨?_, ?_, ?_⟩
  · exact gets_ref (env := cycleEnv ext sh) (n := 1) (e := ⟨0, 0, 1, false, false⟩) (a := 1) (b := 2) (r := b!" 2 0 obj 1 0 R 3 0 obj 1 0 R ")
      (by decide) (by decide) rfl ⟨rfl, rfl, by decide, rfl⟩ (by rintro c t ⟨⟩; decide) (by rw [streamNext_iff]; decide) s
  · exact gets_ref (env := cycleEnv ext sh) (n := 2) (e := ⟨14, 0, 1, false, false⟩) (a := 2) (b := 1) (r := b!" 3 0 obj 1 0 R ")
      (by decide) (by decide) rfl ⟨rfl, rfl, by decide, rfl⟩ (by rintro c t ⟨⟩; decide) (by rw [streamNext_iff]; decide) s
  · exact gets_ref (env := cycleEnv ext sh) (n := 3) (e := ⟨28, 0, 1, false, false⟩) (a := 3) (b := 1) (r := b!" ")
      (by decide) (by decide) rfl ⟨rfl, rfl, by decide, rfl⟩ (by rintro c t ⟨⟩; decide) (by rw [streamNext_iff]; decide) s

/-- The cycle of that file satisfies the hypothesis of `C15_cycle`. -/
example (ext : Ext) (sh : SecHandler) (s : PS) : ∃ o t, Resolves (cycleEnv ext sh) 3 s o t ∧ o.value = .null ∧ o.stream = none := by
  refine C15_cycle (C := fun n => n = 1 ∨ n = 2 ∨ n = 3) ?_ (.inr (.inr rfl)) s
  intro n hn s
  obtain ⟨⟨s1, h1⟩, ⟨s2, h2⟩, ⟨s3, h3⟩⟩ := cycle_objects ext sh s
  rcases hn with rfl | rfl | rfl
  · exact ⟨_, _, 2, 0, h1, rfl, .inr (.inl rfl)⟩
  · exact ⟨_, _, 1, 0, h2, rfl, .inl rfl⟩
  · exact ⟨_, _, 1, 0, h3, rfl, .inl rfl⟩

/-- A chain of one reference: object 1 is `2 0 R`, object 2 a string. -/
def chainEnv (ext : Ext) (sh : SecHandler) : Env :=
  ⟨b!"1 0 obj 2 0 R 2 0 obj (a) ", [(1, ⟨0, 0, 1, false, false⟩), (2, ⟨14, 0, 1, false, false⟩)], sh, ext, some false⟩

example (ext : Ext) (sh : SecHandler) (s : PS) : ∃ t, Resolves (chainEnv ext sh) 1 s ⟨2, 0, .str b!"a", none⟩ t := by
  obtain ⟨s1, h1⟩ := gets_ref (env := chainEnv ext sh) (n := 1) (e := ⟨0, 0, 1, false, false⟩) (a := 1) (b := 2) (r := b!" 2 0 obj (a) ")
      (by decide) (by decide) rfl ⟨rfl, rfl, by decide, rfl⟩ (by rintro c t ⟨⟩; decide) (by rw [streamNext_iff]; decide) s
  have h2 := C58_object (env := chainEnv ext sh) (n := 2) (e := ⟨14, 0, 1, false, false⟩) (h := b!"2 0 obj") (w := b!" ") (t := b!"(a)") (r := b!" ") (o := .str b!"a") (es := [])
    ⟨rfl, rfl, by decide, rfl⟩ twoHeader2 (.ws (by decide) .nil) (by rintro b t ⟨⟩; decide)
    (.str (.plain (by decide) (by decide) (by decide) .nil)) (by rw [streamNext_iff]; decide) (g := fun b => b) (fun b => rfl) 0 s1
  obtain ⟨s2, h2, -⟩ := h2
  exact C15_path (l := [2]) (by decide) (.cons h1 rfl (.last ⟨0, by simpa [mapStr] using h2⟩ (by intro m g h; cases h)))

/-! ### C17 -/

theorem faithful_of {α : Type} {rs : Resolver} {entry : Option Obj} {get : M (Option α)} {as : Obj → Option α} {is : Obj → α → Prop}
    (hget : get = ((match entry with | some o => deref rs o >>= fun v => pure (some v) | none => pure none : M (Option Obj)) >>= fun o => pure (o.bind as)))
    (his : ∀ o a, as o = some a ↔ is o a) : Faithful rs entry get is := by
  have hst : ∀ s v s', (match entry with | some o => deref rs o >>= fun v => pure (some v) | none => pure none : M (Option Obj)) s = .ok (v, s') ↔
      Stands rs entry s v s' := by
    intro s v s'
    cases entry with
    | none =>
      constructor
      · intro h; cases h; exact .absent
      · intro h; cases h; rfl
    | some o =>
      dsimp only
      constructor
      · intro h
        obtain ⟨w, t, h1, h2⟩ := bind_ok h
        cases h2
        cases o with
        | ref n g =>
          obtain ⟨i, t, h3, h4⟩ := bind_ok h1
          cases h4
          exact .ref h3
        | _ => cases h1; exact .direct (by intro n g h; cases h)
      · intro h
        cases h with
        | direct h => rw [deref_direct h]; rfl
        | ref h =>
          rw [deref]
          rw [bind_of_ok (bind_of_ok h)]; rfl
  intro s s'
  have hrun : ∀ r, get s = .ok (r, s') ↔ ∃ v, Stands rs entry s v s' ∧ v.bind as = r := by
    intro r
    rw [hget]
    constructor
    · intro h
      obtain ⟨v, t, h1, h2⟩ := bind_ok h
      cases h2
      exact ⟨v, (hst _ _ _).1 h1, rfl⟩
    · rintro ⟨v, h1, rfl⟩
      rw [bind_of_ok ((hst _ _ _).2 h1)]; rfl
  constructor
  · intro a
    rw [hrun]
    constructor
    · rintro ⟨v, h, hv⟩
      cases v with
      | none => cases hv
      | some v => exact ⟨v, h, (his _ _).1 hv⟩
    · rintro ⟨v, h, hv⟩
      exact ⟨some v, h, (his _ _).2 hv⟩
  · rw [hrun]
    constructor
    · rintro ⟨v, h, hv⟩
      refine ⟨v, h, ?_⟩
      rintro o a rfl ho
      rw [show (some o : Option Obj).bind as = as o from rfl, (his o a).2 ho] at hv
      cases hv
    · rintro ⟨v, h, hv⟩
      refine ⟨v, h, ?_⟩
      cases v with
      | none => rfl
      | some o =>
        cases ho : as o with
        | none => exact ho
        | some a => exact absurd ((his o a).1 ho) (hv o a rfl)

/-- The Boolean a keyword stands for. -/
def IsBool (o : Obj) (b : Bool) : Prop := o = .kw (if b then b!"true" else b!"false")

theorem asArr_iff (o : Obj) (a : List Obj) : o.asArr? = some a ↔ o = .arr a := by cases o <;> simp [Obj.asArr?]
theorem asDict_iff (o : Obj) (a : Dict) : o.asDict? = some a ↔ o = .dict a := by cases o <;> simp [Obj.asDict?]
theorem asName_iff (o : Obj) (a : Bytes) : o.asName? = some a ↔ o = .name a := by cases o <;> simp [Obj.asName?]
theorem asStr_iff (o : Obj) (a : Bytes) : o.asStr? = some a ↔ o = .str a := by cases o <;> simp [Obj.asStr?]
theorem asNum_iff (o : Obj) (a : F64) : o.asNum? = some a ↔ o = .num a := by cases o <;> simp [Obj.asNum?]
theorem asInt_iff (o : Obj) (a : Int) : o.asNum?.map F64.toInt = some a ↔ ∃ x, o = .num x ∧ a = x.toInt := by
  cases o <;> simp [Obj.asNum?, eq_comm]
theorem asBool_iff (o : Obj) (b : Bool) : o.asBool? = some b ↔ IsBool o b := by
  cases o with
  | kw k =>
    rw [Obj.asBool?, IsBool]
    by_cases h1 : k = b!"true"
    · subst h1
      cases b <;> simp
    · rw [if_neg h1]
      by_cases h2 : k = b!"false"
      · subst h2; cases b <;> simp
      · rw [if_neg h2]; cases b <;> simp [h1, h2]
  | _ => simp [Obj.asBool?, IsBool]

theorem entry_dict (rs : Resolver) (d : Dict) (k : Bytes) :
    Dict.getObject rs d k = (match d.get? k with | some o => deref rs o >>= fun v => pure (some v) | none => pure none : M (Option Obj)) := rfl

theorem entry_arr (rs : Resolver) (a : List Obj) (i : Int) :
    Arr.getObject rs a i = (match at? a i with | some o => deref rs o >>= fun v => pure (some v) | none => pure none : M (Option Obj)) := by
  rw [Arr.getObject, at?]
  by_cases h : i < 0
  · rw [if_pos h, if_neg (by omega)]
  · rw [if_neg h, if_pos (by omega)]; rfl

theorem int_of_num {rs : Resolver} {entry : Option Obj} {num : M (Option F64)} {get : M (Option Int)} (hn : Faithful rs entry num fun v x => v = .num x)
    (hg : get = (num >>= fun o => pure (o.map F64.toInt))) : Faithful rs entry get fun v a => ∃ x, v = .num x ∧ AsInt x a := by
  have he : (fun (v : Obj) a => ∃ x, v = .num x ∧ AsInt x a) = fun v a => ∃ x, v = .num x ∧ a = x.toInt := by
    funext v a; simp only [toInt_iff]
  rw [he]
  intro s s'
  have hrun : ∀ r, get s = .ok (r, s') ↔ ∃ x, num s = .ok (x, s') ∧ x.map F64.toInt = r := by
    intro r
    rw [hg]
    constructor
    · intro h
      obtain ⟨v, t, h1, h2⟩ := bind_ok h
      cases h2
      exact ⟨v, h1, rfl⟩
    · rintro ⟨v, h1, rfl⟩
      rw [bind_of_ok h1]; rfl
  constructor
  · intro a
    rw [hrun]
    constructor
    · rintro ⟨x, h, hx⟩
      cases x with
      | none => cases hx
      | some x =>
        obtain ⟨v, h1, h2⟩ := ((hn s s').1 x).1 h
        exact ⟨v, h1, x, h2, by cases hx; rfl⟩
    · rintro ⟨v, h1, x, h2, rfl⟩
      exact ⟨some x, ((hn s s').1 x).2 ⟨v, h1, h2⟩, rfl⟩
  · rw [hrun]
    constructor
    · rintro ⟨x, h, hx⟩
      cases x with
      | some x => cases hx
      | none =>
        obtain ⟨v, h1, h2⟩ := (hn s s').2.1 h
        exact ⟨v, h1, fun o a ho ⟨x, hx, _⟩ => h2 o x ho hx⟩
    · rintro ⟨v, h1, h2⟩
      exact ⟨none, (hn s s').2.2 ⟨v, h1, fun o x ho hx => h2 o x.toInt ho ⟨x, hx, rfl⟩⟩, rfl⟩

/-- **C17** The getters of `Dictionary`: each returns exactly the value the entry stands for when that
has the right type, and reports failure exactly when there is no entry or it has another type. -/
theorem C17_dictionary (rs : Resolver) (d : Dict) (k : Bytes) :
    Faithful rs (d.get? k) (Dict.getObject rs d k) (fun v a => v = a) ∧
    Faithful rs (d.get? k) (Dict.getArray rs d k) (fun v a => v = .arr a) ∧
    Faithful rs (d.get? k) (Dict.getBool rs d k) IsBool ∧
    Faithful rs (d.get? k) (Dict.getDict rs d k) (fun v a => v = .dict a) ∧
    Faithful rs (d.get? k) (Dict.getName rs d k) (fun v a => v = .name a) ∧
    Faithful rs (d.get? k) (Dict.getNumber rs d k) (fun v a => v = .num a) ∧
    Faithful rs (d.get? k) (Dict.getInt rs d k) (fun v a => ∃ x, v = .num x ∧ AsInt x a) ∧
    Faithful rs (d.get? k) (Dict.getString rs d k) (fun v a => v = .str a) := by
  have hnum : Faithful rs (d.get? k) (Dict.getNumber rs d k) (fun v a => v = .num a) := faithful_of rfl asNum_iff
  refine ⟨faithful_of (as := some) ?_ (by simp), faithful_of rfl asArr_iff, faithful_of rfl asBool_iff, faithful_of rfl asDict_iff, faithful_of rfl asName_iff,
    hnum, int_of_num hnum rfl, faithful_of rfl asStr_iff⟩
  rw [← entry_dict]
  funext s
  cases hx : Dict.getObject rs d k s with
  | ok p => rw [bind_of_ok (a := p.1) (t := p.2) hx]; cases h : p.1 <;> simp [← h]
  | panic w => rw [bind_of_panic hx]
  | oof => rw [bind_of_oof hx]

/-- **C17** The getters of `Array`; indexes below 0 or past the end are failures. -/
theorem C17_array (rs : Resolver) (l : List Obj) (i : Int) :
    Faithful rs (at? l i) (Arr.getObject rs l i) (fun v a => v = a) ∧
    Faithful rs (at? l i) (Arr.getArray rs l i) (fun v a => v = .arr a) ∧
    Faithful rs (at? l i) (Arr.getBool rs l i) IsBool ∧
    Faithful rs (at? l i) (Arr.getDict rs l i) (fun v a => v = .dict a) ∧
    Faithful rs (at? l i) (Arr.getName rs l i) (fun v a => v = .name a) ∧
    Faithful rs (at? l i) (Arr.getNumber rs l i) (fun v a => v = .num a) ∧
    Faithful rs (at? l i) (Arr.getInt rs l i) (fun v a => ∃ x, v = .num x ∧ AsInt x a) ∧
    Faithful rs (at? l i) (Arr.getString rs l i) (fun v a => v = .str a) := by
  have hnum : Faithful rs (at? l i) (Arr.getNumber rs l i) (fun v a => v = .num a) := faithful_of (by rw [Arr.getNumber, entry_arr]) asNum_iff
  refine ⟨faithful_of (as := some) ?_ (by simp), faithful_of (by rw [Arr.getArray, entry_arr]) asArr_iff, faithful_of (by rw [Arr.getBool, entry_arr]) asBool_iff,
    faithful_of (by rw [Arr.getDict, entry_arr]) asDict_iff, faithful_of (by rw [Arr.getName, entry_arr]) asName_iff,
    hnum, int_of_num hnum rfl, faithful_of (by rw [Arr.getString, entry_arr]) asStr_iff⟩
  rw [← entry_arr]
  funext s
  cases hx : Arr.getObject rs l i s with
  | ok p => rw [bind_of_ok (a := p.1) (t := p.2) hx]; cases h : p.1 <;> simp [← h]
  | panic w => rw [bind_of_panic hx]
  | oof => rw [bind_of_oof hx]

/-- **C17** `GetStream` of both: the stream of the object a direct reference refers to, and failure
exactly for everything else. -/
theorem C17_stream (rs : Resolver) (d : Dict) (k : Bytes) (l : List Obj) (i : Int) (s s' : PS) :
    (∀ st, Dict.getStream rs d k s = .ok (some st, s') ↔ ∃ n g o, d.get? k = some (.ref n g) ∧ rs n s = .ok (o, s') ∧ st = o.stream) ∧
    (Dict.getStream rs d k s = .ok (none, s') ↔ (∀ n g, d.get? k ≠ some (.ref n g)) ∧ s' = s) ∧
    (∀ st, Arr.getStream rs l i s = .ok (some st, s') ↔ ∃ n g o, at? l i = some (.ref n g) ∧ rs n s = .ok (o, s') ∧ st = o.stream) ∧
    (Arr.getStream rs l i s = .ok (none, s') ↔ (∀ n g, at? l i ≠ some (.ref n g)) ∧ s' = s) := by
  have key : ∀ (entry : Option Obj) (get : M (Option (Option Bytes))),
      get = (match entry with | some (.ref n _) => rs n >>= fun o => pure (some o.stream) | _ => pure none : M (Option (Option Bytes))) →
      (∀ st, get s = .ok (some st, s') ↔ ∃ n g o, entry = some (.ref n g) ∧ rs n s = .ok (o, s') ∧ st = o.stream) ∧
      (get s = .ok (none, s') ↔ (∀ n g, entry ≠ some (.ref n g)) ∧ s' = s) := by
    rintro entry get rfl
    by_cases h : ∃ n g, entry = some (.ref n g)
    · obtain ⟨n, g, rfl⟩ := h
      dsimp only
      constructor
      · intro st
        constructor
        · intro h
          obtain ⟨o, t, h1, h2⟩ := bind_ok h
          cases h2
          exact ⟨n, g, o, rfl, h1, rfl⟩
        · rintro ⟨_, _, o, ⟨⟩, h1, rfl⟩
          rw [bind_of_ok h1]; rfl
      · constructor
        · intro h
          obtain ⟨o, t, h1, h2⟩ := bind_ok h
          cases h2
        · rintro ⟨h, -⟩
          exact absurd rfl (h n g)
    · have hm : ∀ entry : Option Obj, (∀ n g, entry ≠ some (.ref n g)) →
          (match entry with | some (.ref n _) => rs n >>= fun o => pure (some o.stream) | _ => pure none : M (Option (Option Bytes))) = pure none := by
        intro entry h
        cases entry with
        | none => rfl
        | some o =>
          cases o with
          | ref n g => exact absurd rfl (h n g)
          | _ => rfl
      rw [hm entry fun n g he => h ⟨n, g, he⟩]
      constructor
      · intro st
        constructor
        · intro h; cases h
        · rintro ⟨n, g, _, he, -⟩; exact absurd ⟨n, g, he⟩ h
      · constructor
        · intro h'; cases h'; exact ⟨fun n g he => h ⟨n, g, he⟩, rfl⟩
        · rintro ⟨-, rfl⟩; rfl
  obtain ⟨h1, h2⟩ := key (d.get? k) (Dict.getStream rs d k) rfl
  obtain ⟨h3, h4⟩ := key (at? l i) (Arr.getStream rs l i) (by
    rw [Arr.getStream, at?]
    by_cases h : i < 0
    · rw [if_pos h, if_neg (by omega)]
    · rw [if_neg h, if_pos (by omega)]; rfl)
  exact ⟨h1, h2, h3, h4⟩

/-- **C17** `GetReference` never resolves. -/
theorem C17_reference (d : Dict) (k : Bytes) (n g : Int) : Dict.getReference d k = some (n, g) ↔ d.get? k = some (.ref n g) := by
  rw [Dict.getReference.eq_def]
  split
  · rename_i h; rw [h]; simp
  · rename_i h
    constructor
    · intro h; cases h
    · intro h'; exact absurd h' (h n g)

/-- **C17** No getter panics: they return whenever resolving references does. -/
theorem C17_total {rs : Resolver} (hrs : ∀ n s, ∃ r, rs n s = .ok r) (d : Dict) (k : Bytes) (l : List Obj) (i : Int) (s : PS) :
    (∃ r, Dict.getArray rs d k s = .ok r) ∧ (∃ r, Dict.getBool rs d k s = .ok r) ∧ (∃ r, Dict.getDict rs d k s = .ok r) ∧
    (∃ r, Dict.getName rs d k s = .ok r) ∧ (∃ r, Dict.getNumber rs d k s = .ok r) ∧ (∃ r, Dict.getInt rs d k s = .ok r) ∧
    (∃ r, Dict.getString rs d k s = .ok r) ∧ (∃ r, Dict.getStream rs d k s = .ok r) ∧ (∃ r, Dict.getObject rs d k s = .ok r) ∧
    (∃ r, Arr.getArray rs l i s = .ok r) ∧ (∃ r, Arr.getBool rs l i s = .ok r) ∧ (∃ r, Arr.getDict rs l i s = .ok r) ∧
    (∃ r, Arr.getName rs l i s = .ok r) ∧ (∃ r, Arr.getNumber rs l i s = .ok r) ∧ (∃ r, Arr.getInt rs l i s = .ok r) ∧
    (∃ r, Arr.getString rs l i s = .ok r) ∧ (∃ r, Arr.getStream rs l i s = .ok r) ∧ (∃ r, Arr.getObject rs l i s = .ok r) :=
  ⟨Dict.getArray_total hrs d k s, Dict.getBool_total hrs d k s, Dict.getDict_total hrs d k s, Dict.getName_total hrs d k s,
    Dict.getNumber_total hrs d k s, Dict.getInt_total hrs d k s, Dict.getString_total hrs d k s, Dict.getStream_total hrs d k s,
    Dict.getObject_total hrs d k s, Arr.getArray_total hrs l i s, (Arr.getObject_total hrs l i).bind' (fun _ => Total.pure _) s,
    Arr.getDict_total hrs l i s, Arr.getName_total hrs l i s, Arr.getNumber_total hrs l i s, Arr.getInt_total hrs l i s,
    Arr.getString_total hrs l i s, Arr.getStream_total hrs l i s, Arr.getObject_total hrs l i s⟩

/-- Numbers that are not integers lose their fraction; -2 ^ 63 is an integer, 2 ^ 63 is not. -/
example : AsInt (.fin (-5 / 2)) (-2) ∧ AsInt (.fin (5 / 2)) 2 ∧ ¬ AsInt (.fin (-5 / 2)) (-3) ∧ AsInt (.fin (2 ^ 63)) (-2 ^ 63) ∧ AsInt (.fin (-2 ^ 63)) (-2 ^ 63) := by
  simp only [toInt_iff]; decide +kernel

/-- Entries of every kind; a negative index. -/
example : at? [.name [65], .ref 3 0] (-1) = none ∧ at? [.name [65], .ref 3 0] 1 = some (.ref 3 0) ∧ at? [.name [65], .ref 3 0] 2 = none := ⟨rfl, rfl, rfl⟩

/-! ### C20 -/

/-- A stream object whose `/Filter` is a reference to the object itself. -/
def selfFilterEnv (ext : Ext) (sh : SecHandler) : Env :=
  ⟨b!"1 0 obj<</Filter 1 0 R>>stream\nx\nendstream", [(1, ⟨0, 0, 1, false, false⟩)], sh, ext, some false⟩

theorem self_value (ext : Ext) (sh : SecHandler) (rs : Resolver) (s : PS) : ∃ s1,
    getObjectF (selfFilterEnv ext sh) rs 1 s = (getStreamF (selfFilterEnv ext sh) rs 1 ⟨0, 0, 1, false, false⟩ (.dict [(b!"Filter", .ref 1 0)]) >>=
      fun st => pure ⟨1, 0, .dict [(b!"Filter", .ref 1 0)], st⟩ : M IndObj) s1 ∧ (selfFilterEnv ext sh).file.drop s1.pos = b!"stream\nx\nendstream" ∧ True ∧ True := by
  have hD : ObjAt (.dict (dictOf [(b!"Filter", .ref 1 0)])) b!"<</Filter 1 0 R>>" b!"stream\nx\nendstream" [] := by
    have h1 : ObjAt (.ref 1 0) b!"1 0 R" (b!">>" ++ b!"stream\nx\nendstream") [] := ref_text (b := 1) (by decide) (by rintro b t ⟨⟩; decide)
    have h2 : DictAt [(b!"Filter", .ref 1 0)] b!"/Filter 1 0 R>>" b!"stream\nx\nendstream" [] :=
      .cons (w := []) (kt := b!"Filter") (w' := b!" ") (u := b!">>") .nil (nameText_plain _ (by decide)) (.ws (by decide) .nil) (by rintro b t ⟨⟩; decide) h1 (.nil (w := []) .nil)
    exact .dict h2
  obtain ⟨s1, h1, p1, -, -⟩ := getObjectF_value (env := selfFilterEnv ext sh) (n := 1) (e := ⟨0, 0, 1, false, false⟩) (h := b!"1 0 obj") (w := [])
    ⟨rfl, rfl, by decide, rfl⟩ twoHeader1 .nil (by rintro b t ⟨⟩; decide) hD (g := fun b => b) (fun b => rfl) rs s
  refine ⟨s1, ?_, by rw [p1]; rfl, trivial, trivial⟩
  simpa [mapStr, mapStrD, dictOf, Assoc.set] using h1

theorem self_stream (ext : Ext) (sh : SecHandler) {rs : Resolver} {s : PS} (hs : (selfFilterEnv ext sh).file.drop s.pos = b!"stream\nx\nendstream")
    (h : ∀ s, rs 1 s = .oof) : getStreamF (selfFilterEnv ext sh) rs 1 ⟨0, 0, 1, false, false⟩ (.dict [(b!"Filter", .ref 1 0)]) s = .oof := by
  have hk : (readKeyword (selfFilterEnv ext sh).file s).1 = b!"stream" := by
    rw [(readKeyword_spec _ s).1, rest, hs]; decide
  rw [getStreamF, St.ofFun_bind, if_pos hk]
  refine bind_of_oof ?_
  rw [filterList]
  refine bind_of_oof ?_
  rw [Dict.getArray, show ((Obj.dict [(b!"Filter", .ref 1 0)]).asDict?.getD []) = [(b!"Filter", .ref 1 0)] from rfl, Dict.getObject_ref (n := 1) (g := 0) rfl]
  exact bind_of_oof (bind_of_oof (h _))

/-- **C20 fails**: on a file whose only stream names itself as its filter, `GetObject` does not return,
whatever the state it is called in and however deep the calls are allowed to nest. -/
theorem C20_terminates_false (ext : Ext) (sh : SecHandler) : ¬ ∀ (env : Env) (n : Int) (s : PS), env.ext = ext → env.sh = sh → ∃ f, getObject env f n s ≠ .oof := by
  have key : ∀ f s, getObject (selfFilterEnv ext sh) f 1 s = .oof := by
    intro f
    induction f with
    | zero =>
      intro s
      obtain ⟨s1, h1, p1, -, -⟩ := self_value ext sh (resolver (selfFilterEnv ext sh) 0) s
      rw [getObject, h1, bind_of_oof]
      exact self_stream ext sh p1 fun s => rfl
    | succ f ih =>
      intro s
      obtain ⟨s1, h1, p1, -, -⟩ := self_value ext sh (resolver (selfFilterEnv ext sh) (f + 1)) s
      rw [getObject, h1, bind_of_oof]
      refine self_stream ext sh p1 fun s => ?_
      rw [resolver, keepOffset, resolve_succ, if_neg (by simp), bind_of_oof (ih s)]
      rfl
  intro h
  obtain ⟨f, hf⟩ := h (selfFilterEnv ext sh) 1 ⟨0, 0, false, []⟩ rfl rfl
  exact hf (key f _)

/-- **C20, partial** `GetObject` returns (or panics) when the references that it follows are well
founded: every reference in the `Type`, `Filter` and `DecodeParms` of a stream is in a set `A`, every
reference in an object of `A` is in `A` and of lower rank. What is missing is exactly the files with a
circular dependency among these (`C20_terminates_false`). References elsewhere may form cycles. -/
theorem C20_terminates_partial {env : Env} {A : Int → Prop} {ρ : Int → Nat} {B : Nat} (hB : ∀ n, A n → ρ n < B)
    (hstream : ∀ n v r, ValueAt env n v r → StreamNext r → ∀ d : Dict, v = .dict d → ∀ k ∈ [b!"Type", b!"Filter", b!"DecodeParms"],
      ∀ o, d.get? k = some o → ∀ m, Refers o m → A m)
    (haux : ∀ n v r, A n → ValueAt env n v r → ∀ m, Refers v m → A m ∧ ρ m < ρ n) (n : Int) (s : PS) : getObject env B n s ≠ .oof := by
  have hres : ∀ f seen n, A n → ρ n < f → TR (fun i => RefsIn (fun m => A m ∧ ρ m < ρ n) i.value) (resolve env f seen n) := by
    intro f
    induction f with
    | zero => intro seen n _ h; omega
    | succ f ih =>
      intro seen n hn hf
      rw [resolve_succ]
      split
      · exact TR.pure RefsIn.null
      · have hg : TR (fun i => RefsIn (fun m => A m ∧ ρ m < ρ n) i.value) (getObject env f n) := by
          rw [getObject]
          refine getObjectF_tr (Q := fun m => A m ∧ ρ m < ρ n) (P := RefsIn fun m => A m ∧ ρ m < ρ n) ?_ ?_ ?_ RefsIn.null
          · intro m hm
            exact (TR.keepOffset (ih [] m hm.1 (by omega))).mono fun i hi k hk => ⟨(hi k hk).1, by have := (hi k hk).2; omega⟩
          · intro v r hv _ d hd k hk o ho m hm
            exact haux n v r hn hv m (hd ▸ .dict ho hm)
          · intro v r hv m hm
            exact haux n v r hn hv m hm
        refine hg.bind fun o ho => ?_
        split
        · rename_i m g hv
          have hm := ho m (by rw [hv]; exact .here)
          exact (ih (n :: seen) m hm.1 (by omega)).mono fun i hi k hk => ⟨(hi k hk).1, by have := (hi k hk).2; omega⟩
        · exact TR.pure ho
  have hrs : ∀ m, A m → TR (fun i => RefsIn A i.value) (resolver env B m) := fun m hm =>
    (TR.keepOffset (hres B [] m hm (hB m hm))).mono fun i hi k hk => (hi k hk).1
  exact (getObjectF_tr (P := fun _ => True) hrs (fun v r hv hs d hd k hk o ho => hstream n v r hv hs d hd k hk o ho) (fun _ _ _ => trivial) trivial).1 s

theorem valueAt_text {env : Env} {n : Int} {e : XrefEntry} {ds gs : List Nat} {h w t r : Bytes} {o : Obj} {es : List Err}
    (hx : InUse env n e (h ++ (w ++ (t ++ r)))) (hh : HeaderText ds gs h) (hw : Blank w) (hs : Stops (w ++ (t ++ r))) (ho : ObjAt o t r es)
    {g : Bytes → Bytes} (hg : ∀ b, stringDec env n e b = .ok (g b)) {v : Obj} {r' : Bytes} (hv : ValueAt env n v r') : v = mapStr g o := by
  cases hv with
  | @mk e' s v err s' he ht hr =>
    have : e' = e := by rw [hx.entry] at he; exact (Option.some.inj he).symm
    subst this
    have hseek : seek s e'.offset = { s with pos := e'.offset.toNat, lim := e'.offset.toNat, last := false } := by
      rw [seek, if_neg (by have := hx.off; omega)]
    have hin : env.file.drop (seek s e'.offset).pos = h ++ (w ++ (t ++ r)) := by rw [hseek]; exact hx.text
    obtain ⟨n', g', -, -, e1, st1⟩ := readObjectHeader_text hh hs env.file (seek s e'.offset) hin
    have hin2 : env.file.drop (readObjectHeader env.file (seek s e'.offset)).2.pos = w ++ (t ++ r) := by
      rw [st1.pos, ← List.drop_drop, hin, List.drop_left]
    obtain ⟨s2, e2, -, -⟩ := readObj_mapStr hg ho hw env.file _ hin2
    have := hr.symm.trans e2
    cases this
    rfl

/-- A stream whose filter is given by reference, and an object that refers to itself. -/
def rankEnv (ext : Ext) (sh : SecHandler) : Env :=
  ⟨b!"1 0 obj<</Filter 2 0 R>>stream\nx\nendstream 2 0 obj /ASCIIHexDecode 3 0 obj 3 0 R ",
    [(1, ⟨0, 0, 1, false, false⟩), (2, ⟨43, 0, 1, false, false⟩), (3, ⟨67, 0, 1, false, false⟩)], sh, ext, some false⟩

/-- The hypotheses of `C20_terminates_partial` hold for that file. -/
example (ext : Ext) (sh : SecHandler) (n : Int) (s : PS) : getObject (rankEnv ext sh) 1 n s ≠ .oof := by
  have v1 : ∀ v r, ValueAt (rankEnv ext sh) 1 v r → v = .dict [(b!"Filter", .ref 2 0)] := by
    intro v r hv
    have h1 : ObjAt (.ref 2 0) b!"2 0 R" (b!">>" ++ (rankEnv ext sh).file.drop 24) [] := ref_text (b := 2) (by decide) (by rintro b t ⟨⟩; decide)
    have h2 : DictAt [(b!"Filter", .ref 2 0)] b!"/Filter 2 0 R>>" ((rankEnv ext sh).file.drop 24) [] :=
      .cons (w := []) (kt := b!"Filter") (w' := b!" ") (u := b!">>") .nil (nameText_plain _ (by decide)) (.ws (by decide) .nil) (by rintro b t ⟨⟩; decide) h1 (.nil (w := []) .nil)
    have := valueAt_text (env := rankEnv ext sh) (n := 1) (e := ⟨0, 0, 1, false, false⟩) (h := b!"1 0 obj") (w := []) (t := b!"<</Filter 2 0 R>>") (r := (rankEnv ext sh).file.drop 24)
      ⟨rfl, rfl, by decide, rfl⟩ twoHeader1 .nil (by rintro b t ⟨⟩; decide) (.dict h2) (g := fun b => b) (fun b => rfl) hv
    simpa [mapStr, mapStrD, dictOf, Assoc.set] using this
  have v2 : ∀ v r, ValueAt (rankEnv ext sh) 2 v r → v = .name b!"ASCIIHexDecode" := by
    intro v r hv
    have := valueAt_text (env := rankEnv ext sh) (n := 2) (e := ⟨43, 0, 1, false, false⟩) (h := b!"2 0 obj") (w := b!" ") (t := b!"/ASCIIHexDecode") (r := (rankEnv ext sh).file.drop 66)
      ⟨rfl, rfl, by decide, rfl⟩ twoHeader2 (.ws (by decide) .nil) (by rintro b t ⟨⟩; decide) (.name (nameText_plain _ (by decide)) (by rintro b t ⟨⟩; decide)) (g := fun b => b) (fun b => rfl) hv
    simpa [mapStr] using this
  have v3 : ∀ v r, ValueAt (rankEnv ext sh) 3 v r → v = .ref 3 0 := by
    intro v r hv
    have := valueAt_text (env := rankEnv ext sh) (n := 3) (e := ⟨67, 0, 1, false, false⟩) (h := b!"3 0 obj") (w := b!" ") (t := b!"3 0 R") (r := (rankEnv ext sh).file.drop 80)
      ⟨rfl, rfl, by decide, rfl⟩ (digit_header (a := 3) (by decide)) (.ws (by decide) .nil) (by rintro b t ⟨⟩; decide) (ref_text (b := 3) (by decide) (by rintro b t ⟨⟩; decide)) (g := fun b => b) (fun b => rfl) hv
    simpa [mapStr] using this
  have hn : ∀ n v r, ValueAt (rankEnv ext sh) n v r → n = 1 ∨ n = 2 ∨ n = 3 := by
    intro n v r hv
    cases hv with
    | mk he _ _ =>
      simp only [rankEnv, Assoc.get?] at he
      by_cases h1 : (1 : Int) = n
      · exact .inl h1.symm
      by_cases h2 : (2 : Int) = n
      · exact .inr (.inl h2.symm)
      by_cases h3 : (3 : Int) = n
      · exact .inr (.inr h3.symm)
      simp [h1, h2, h3] at he
  refine C20_terminates_partial (A := fun n => n = 2) (ρ := fun _ => 0) (by intro n h; decide) ?_ ?_ n s
  · rintro n v r hv - d rfl k - o ho m hm
    rcases hn _ _ _ hv with rfl | rfl | rfl
    · cases v1 _ _ hv
      rw [Assoc.get?_cons] at ho
      split at ho
      · cases ho; cases hm; rfl
      · cases ho
    · cases v2 _ _ hv
    · cases v3 _ _ hv
  · rintro n v r rfl hv m hm
    cases v2 _ _ hv
    cases hm

/-! ### C33 -/

theorem decodeLoop_items (cd : Codecs) (rs : Resolver) (F P : List Obj) : ∀ (fs pre : List Obj), F = pre ++ fs →
    ∀ data, decodeLoop cd rs F P fs.length pre.length data = decodeItems cd rs fs (P.drop pre.length) data := by
  intro fs
  induction fs with
  | nil => intros; rfl
  | cons f fs ih =>
    intro pre hF data
    have hget : F[pre.length]? = some f := by rw [hF, List.getElem?_append_right (Nat.le_refl _)]; simp
    have hrec : ∀ d, decodeLoop cd rs F P fs.length ((pre.length : Int) + 1) d = decodeItems cd rs fs (P.drop pre.length).tail d := by
      intro d
      have := ih (pre ++ [f]) (by rw [hF]; simp) d
      rw [List.length_append, List.length_singleton] at this
      rw [List.tail_drop, ← this]
      rfl
    have hname : ∀ o : Obj, (o.asName?).getD [] = (match o with | .name n => n | _ => []) := by intro o; cases o <;> rfl
    have hdict : ∀ o : Obj, (o.asDict?).getD [] = (match o with | .dict n => n | _ => []) := by intro o; cases o <;> rfl
    funext s
    rw [List.length_cons, decodeLoop, decodeItems]
    simp only [hrec]
    have h1 : ∀ s, Arr.getName rs F (pre.length : Int) s = (deref rs f >>= fun o => pure o.asName? : M (Option Bytes)) s := by
      intro s
      rw [Arr.getName, Arr.getObject, if_neg (by omega), Int.toNat_natCast, hget]
      dsimp only
      cases hd : deref rs f s with
      | ok p => rw [bind_of_ok (a := some p.1) (t := p.2) (by rw [bind_of_ok (a := p.1) (t := p.2) hd]; rfl), bind_of_ok (a := p.1) (t := p.2) hd]; rfl
      | panic w => rw [bind_of_panic (by rw [bind_of_panic hd]), bind_of_panic hd]
      | oof => rw [bind_of_oof (by rw [bind_of_oof hd]), bind_of_oof hd]
    have h2 : ∀ s, (∃ p t, deref rs ((P.drop pre.length).headD .null) s = .ok (p, t) ∧ ∃ q, Arr.getDict rs P (pre.length : Int) s = .ok (q, t) ∧
          q.getD [] = (match p with | .dict d => d | _ => [])) ∨
        (∃ w, deref rs ((P.drop pre.length).headD .null) s = .panic w ∧ Arr.getDict rs P (pre.length : Int) s = .panic w) ∨
        (deref rs ((P.drop pre.length).headD .null) s = .oof ∧ Arr.getDict rs P (pre.length : Int) s = .oof) := by
      intro s
      rw [Arr.getDict, Arr.getObject, if_neg (by omega), Int.toNat_natCast, List.headD_eq_head?_getD, List.head?_drop]
      cases hp : P[pre.length]? with
      | none => exact .inl ⟨.null, s, rfl, none, rfl, rfl⟩
      | some o =>
        rw [Option.getD_some]
        dsimp only
        cases hd : deref rs o s with
        | ok p =>
          refine .inl ⟨p.1, p.2, rfl, p.1.asDict?, ?_, hdict _⟩
          rw [bind_of_ok (a := some p.1) (t := p.2) (by rw [bind_of_ok (a := p.1) (t := p.2) hd]; rfl)]; rfl
        | panic w => exact .inr (.inl ⟨w, rfl, by rw [bind_of_panic (by rw [bind_of_panic hd])]⟩)
        | oof => exact .inr (.inr ⟨rfl, by rw [bind_of_oof (by rw [bind_of_oof hd])]⟩)
    cases hd : deref rs f s with
    | panic w => rw [bind_of_panic (by rw [h1, bind_of_panic hd]), bind_of_panic hd]
    | oof => rw [bind_of_oof (by rw [h1, bind_of_oof hd]), bind_of_oof hd]
    | ok p =>
      rw [bind_of_ok (a := p.1.asName?) (t := p.2) (by rw [h1, bind_of_ok (a := p.1) (t := p.2) hd]; rfl), bind_of_ok (a := p.1) (t := p.2) hd]
      rcases h2 p.2 with ⟨q, t, e1, q', e2, e3⟩ | ⟨w, e1, e2⟩ | ⟨e1, e2⟩
      · rw [bind_of_ok e1, bind_of_ok e2, hname, e3]; rfl
      · rw [bind_of_panic e1, bind_of_panic e2]
      · rw [bind_of_oof e1, bind_of_oof e2]

/-- **C33** `ReadStream` decrypts the raw bytes and then applies the filters listed, first to last, each
with the parameters at the same index; a stream without end gives no data. -/
theorem C33_order (file : Bytes) (cd : Codecs) (rs : Resolver) (dec : Bytes → Res Bytes) (fs ps : List Obj) (s : PS) :
    readStream file cd rs dec fs ps s = match readStreamRaw file s with
      | (none, s1) => .ok (some [], s1)
      | (some raw, s1) => (ofRes (dec raw) >>= fun data => decodeItems cd rs fs ps (some data) : M (Option Bytes)) s1 := by
  rw [readStream, St.ofFun_bind]
  generalize readStreamRaw file s = r
  obtain ⟨o, s1⟩ := r
  cases o with
  | none => rfl
  | some raw =>
    have := decodeLoop_items cd rs fs ps fs [] rfl
    simp only [List.length_nil, List.drop_zero] at this
    dsimp only
    simp only [← this]
    rfl

/-- **C33** With direct names and dictionaries (or null): `DecodeStream` for each name in order. -/
theorem C33_direct (cd : Codecs) (rs : Resolver) : ∀ (fs : List Bytes) (os : List Obj) (ps : List Dict), ParmList os ps →
    ∀ data, decodeItems cd rs (fs.map .name) os data = decodeAll cd rs fs ps data := by
  intro fs
  induction fs with
  | nil => intros; rfl
  | cons f fs ih =>
    intro os ps hp data
    funext s
    cases hp with
    | nil =>
      have := ih [] [] .nil
      rw [List.map_cons, decodeItems, decodeAll, bind_of_ok (a := .name f) (t := s) rfl, bind_of_ok (a := .null) (t := s) rfl]
      simp only [List.tail_nil, this]
      rfl
    | cons h hp =>
      have := ih _ _ hp
      cases h with
      | dict =>
        rw [List.map_cons, decodeItems, decodeAll, bind_of_ok (a := .name f) (t := s) rfl, List.headD_cons, bind_of_ok (a := .dict _) (t := s) rfl]
        simp only [List.tail_cons, this]
        rfl
      | null =>
        rw [List.map_cons, decodeItems, decodeAll, bind_of_ok (a := .name f) (t := s) rfl, List.headD_cons, bind_of_ok (a := .null) (t := s) rfl]
        simp only [List.tail_cons, this]
        rfl

/-- **C33** Unsupported names are transparent, whatever the parameters. -/
theorem C33_unknown (cd : Codecs) (rs : Resolver) (f : Bytes) (data : Option Bytes) (parms : Dict)
    (h : f ∉ [b!"ASCIIHexDecode", b!"ASCII85Decode", b!"RunLengthDecode", b!"FlateDecode", b!"LZWDecode"]) (s : PS) :
    decodeStream cd rs f data parms s = .ok (data, s) := by
  simp only [List.mem_cons, List.not_mem_nil, or_false, not_or] at h
  rw [decodeStream.eq_def]
  split
  · rfl
  · rfl
  · rw [if_neg h.1, if_neg h.2.1, if_neg h.2.2.1, if_neg h.2.2.2.1, if_neg h.2.2.2.2]; rfl

/-- **C33** Empty data passes through every filter. -/
theorem C33_empty (cd : Codecs) (rs : Resolver) (f : Bytes) (parms : Dict) (s : PS) :
    decodeStream cd rs f (some []) parms s = .ok (some [], s) ∧ decodeStream cd rs f none parms s = .ok (none, s) := ⟨rfl, rfl⟩

/-- **C33** What each supported name stands for. -/
theorem C33_names (cd : Codecs) (rs : Resolver) (b : UInt8) (d : Bytes) (parms : Dict) :
    decodeStream cd rs b!"ASCIIHexDecode" (some (b :: d)) parms = pure (some (asciiHexDecode (b :: d))) ∧
    decodeStream cd rs b!"ASCII85Decode" (some (b :: d)) parms = pure (some (ascii85Decode (b :: d))) ∧
    (∀ s, ∃ out, decodeStream cd rs b!"RunLengthDecode" (some (b :: d)) parms s = .ok (out, s) ∧ out.getD [] = runLengthDecode (b :: d)) ∧
    decodeStream cd rs b!"FlateDecode" (some (b :: d)) parms = (flateDecode cd rs (b :: d) parms >>= fun d => pure (some d)) ∧
    decodeStream cd rs b!"LZWDecode" (some (b :: d)) parms = (lzwDecode cd rs (b :: d) parms >>= fun d => pure (some d)) := by
  refine ⟨rfl, rfl, fun s => ⟨_, rfl, ?_⟩, rfl, rfl⟩
  split
  · rename_i h; exact (List.isEmpty_iff.1 h).symm
  · rfl

/-- **C33** A list of filters is the composition of its parts. -/
theorem C33_compose (cd : Codecs) (rs : Resolver) (gs : List Bytes) : ∀ (fs : List Bytes) (ps : List Dict) (data : Option Bytes),
    decodeAll cd rs (fs ++ gs) ps data = (decodeAll cd rs fs ps data >>= decodeAll cd rs gs (ps.drop fs.length) : M (Option Bytes)) := by
  intro fs
  induction fs with
  | nil => intros; rfl
  | cons f fs ih =>
    intro ps data
    rw [List.cons_append, decodeAll, decodeAll]
    funext s
    cases hd : decodeStream cd rs f data (ps.headD []) s with
    | ok p =>
      rw [bind_of_ok (a := p.1) (t := p.2) hd, ih, bind_run, bind_run, bind_of_ok (a := p.1) (t := p.2) hd]
      simp
    | panic w => rw [bind_of_panic hd, bind_of_panic (by rw [bind_of_panic hd])]
    | oof => rw [bind_of_oof hd, bind_of_oof (by rw [bind_of_oof hd])]

/-- Two filters, the second unknown; hexadecimal digits for `AB`. -/
example (cd : Codecs) (rs : Resolver) (s : PS) :
    decodeAll cd rs [b!"ASCIIHexDecode", b!"DCTDecode"] [] (some b!"4142>") s = .ok (some b!"AB", s) := by
  rw [decodeAll, List.headD_nil, bind_of_ok (a := some b!"AB") (t := s) (congrFun (C33_names cd rs 52 b!"142>" []).1 s), decodeAll,
    bind_of_ok (C33_unknown cd rs b!"DCTDecode" _ _ (by decide) s)]
  rfl

end Pdf.Props
