import Verif.Lemmas.RunsExtract
import Verif.Props.XrefLoad
import Verif.Props.Crypt
import Verif.Lemmas.Deeper
/-!
Loading a tame file returns.
-/

namespace Pdf
open Spec St Props

/-- no encryption was set up, the values of the trailer are tame, and if `U`, none asks for encryption -/
structure Plain (U : Prop) (s : LS) : Prop where
  sh : s.sh = newSecurityHandler
  values : ∀ p ∈ s.trailer, TameObj U p.2
  encrypt : U → s.trailer.get? b!"Encrypt" = none

variable {U : Prop}

theorem Plain.of {s t : LS} (h : Plain U s) (h1 : t.sh = s.sh) (h2 : t.trailer = s.trailer) : Plain U t :=
  ⟨h1 ▸ h.sh, h2 ▸ h.values, h2 ▸ h.encrypt⟩

/-- computations of `Load` -/
abbrev RunsL (U : Prop) {α : Type} (P : α → Prop) (x : Depth → L α) : Prop := Runs (Plain U) P x

theorem RunsL.lift {α : Type} {P : α → Prop} {x : Depth → LS → M α} (hx : ∀ s, Plain U s → RunsM P fun i => x i s) : RunsL U P fun i => liftM (x i) := by
  intro s hs
  obtain ⟨a, t, ha, -, F, hF⟩ := hx s hs s.ps trivial
  exact ⟨a, { s with ps := t }, ha, hs.of rfl rfl, F, fun i hi => liftM_run (hF i hi)⟩

theorem RunsL.fun {α : Type} (g : PS → α × PS) : RunsL U (fun _ => True) fun _ => liftM (fun _ => St.ofFun g) :=
  RunsL.lift fun _ _ => Runs.ofFun fun _ _ => ⟨trivial, trivial⟩

theorem seekL_runs (o : Int) : RunsL U (fun _ => True) fun _ => liftM (fun _ => seekM o) := RunsL.lift fun _ _ _ _ => ⟨(), _, trivial, trivial, 0, fun _ _ => rfl⟩

theorem setXref_runs (n : Int) (e : XrefEntry) : RunsL U (fun _ => True) fun _ => setXref n e := fun s hs => ⟨(), { s with xref := s.xref.set n e }, trivial, hs.of rfl rfl, 0, fun _ _ => rfl⟩

theorem mergeXref_runs (x : Assoc Int XrefEntry) : RunsL U (fun _ => True) fun _ => mergeXref x := fun s hs => ⟨(), { s with xref := s.xref.merge x }, trivial, hs.of rfl rfl, 0, fun _ _ => rfl⟩

theorem get?_none_mem {κ α : Type} [DecidableEq κ] {m : Assoc κ α} {k : κ} (h : m.get? k = none) : ∀ p ∈ m, p.1 ≠ k := by
  induction m with
  | nil => intro p hp; cases hp
  | cons q t ih =>
    obtain ⟨k', v⟩ := q
    intro p hp e
    rw [Assoc.get?] at h
    split at h
    · cases h
    · rename_i hk
      rcases List.mem_cons.1 hp with rfl | hp
      · exact hk e
      · exact ih h p hp e

theorem mem_set' {d : Dict} {k : Bytes} {v : Obj} {p : Bytes × Obj} (h : p ∈ d.set k v) : p ∈ d ∨ p = (k, v) := by
  induction d with
  | nil => simp [Assoc.set] at h; right; exact h
  | cons q t ih =>
    obtain ⟨k', v'⟩ := q
    rw [Assoc.set] at h
    split at h
    · rename_i hk
      rcases List.mem_cons.1 h with rfl | h
      · right; rfl
      · left; exact List.mem_cons_of_mem _ h
    · rcases List.mem_cons.1 h with rfl | h
      · left; exact List.mem_cons_self
      · rcases ih h with h | h
        · left; exact List.mem_cons_of_mem _ h
        · right; exact h

theorem mem_merge {d : Dict} : ∀ {m : Dict} {p : Bytes × Obj}, p ∈ d.merge m → p ∈ d ∨ p ∈ m := by
  intro m
  induction m generalizing d with
  | nil => intro p h; exact .inl h
  | cons q t ih =>
    intro p h
    rcases ih (d := d.set q.1 q.2) h with h | h
    · rcases mem_set' h with h | h
      · exact .inl h
      · exact .inr (by rw [h]; exact List.mem_cons_self)
    · exact .inr (List.mem_cons_of_mem _ h)

theorem mergeTrailer_runs {d : Dict} (hd : TameObj U (.dict d)) : RunsL U (fun _ => True) fun _ => mergeTrailer d := by
  intro s hs
  refine ⟨(), { s with trailer := s.trailer.merge d }, trivial, ⟨hs.sh, ?_, fun hu => ?_⟩, 0, fun _ _ => rfl⟩
  · intro p hp
    rcases mem_merge hp with hp | hp
    · exact hs.values p hp
    · intro e he
      refine hd e ?_
      rw [dictsIn]
      exact List.mem_cons_of_mem _ (mem_dictsInValues.2 ⟨p, hp, he⟩)
  show (s.trailer.merge d).get? b!"Encrypt" = none
  rw [Assoc.get?_merge, hs.encrypt hu]
  cases hf : d.reverse.find? (fun p => p.1 = b!"Encrypt") with
  | none => rfl
  | some p =>
    have h1 := List.find?_some hf
    have h2 := List.mem_of_find?_eq_some hf
    exact absurd (of_decide_eq_true h1) (get?_none_mem (hd.dict.encrypt hu) p (List.mem_reverse.1 h2))

theorem readBE_runs {w : Int} (h : 0 ≤ w ∧ w ≤ 2 ^ 48) (d : Bytes) : RunsL U (fun _ => True) fun _ => (St.ofRes (readBE d w) : L (Option Int × Bytes)) := by
  refine Runs.ofRes ?_
  rw [readBE, if_neg (by omega)]
  split
  · exact ⟨_, rfl, trivial⟩
  · exact ⟨_, rfl, trivial⟩

theorem streamEntries_runs {w0 w1 w2 : Int} (h0 : 0 ≤ w0 ∧ w0 ≤ 2 ^ 48) (h1 : 0 ≤ w1 ∧ w1 ≤ 2 ^ 48) (h2 : 0 ≤ w2 ∧ w2 ≤ 2 ^ 48) : ∀ n num d,
    RunsL U (fun _ => True) fun _ => streamEntries w0 w1 w2 n num d := by
  intro n
  induction n with
  | zero => intro num d; exact Runs.pure trivial
  | succ n ih =>
    intro num d
    simp only [streamEntries]
    refine Runs.bind (readBE_runs h0 d) fun a _ => ?_
    obtain ⟨a, d⟩ := a
    cases a with | none => exact Runs.pure trivial | some a => ?_
    refine Runs.bind (readBE_runs h1 d) fun b _ => ?_
    obtain ⟨b, d⟩ := b
    cases b with | none => exact Runs.pure trivial | some b => ?_
    refine Runs.bind (readBE_runs h2 d) fun c _ => ?_
    obtain ⟨c, d⟩ := c
    cases c with | none => exact Runs.pure trivial | some c => ?_
    exact Runs.bind (setXref_runs _ _) fun _ _ => ih _ _

section
variable {cfg : Cfg} (hcd : Moderate cfg.ext.toCodecs) (ht : TameFile U cfg.file) (hm : cfg.verbose ≠ none)
include hcd ht hm

theorem rsL {s : LS} (hs : Plain U s) (n : Int) : RunsM (TameInd U (fun _ => True)) fun i => resolver (s.env cfg) i.f n :=
  (resolver_runs (getsAll_tame (env := s.env cfg) hm hcd ht) n).mono fun _ h => h.1

theorem streamSections_runs {index : List Obj} (hi : ∀ o ∈ index, TameObj U o) {w0 w1 w2 : Int} (h0 : 0 ≤ w0 ∧ w0 ≤ 2 ^ 48) (h1 : 0 ≤ w1 ∧ w1 ≤ 2 ^ 48) (h2 : 0 ≤ w2 ∧ w2 ≤ 2 ^ 48) : ∀ k j d,
    RunsL U (fun _ => True) fun i => streamSections cfg (fun env => resolver env i.f) index w0 w1 w2 k j d := by
  intro k
  induction k with
  | zero => intro j d; exact Runs.pure trivial
  | succ k ih =>
    intro j d
    simp only [streamSections]
    refine Runs.bind (RunsL.lift fun s hs => Arr.getInt_runs (rs := fun i => resolver (s.env cfg) i.f) (rsL hcd ht hm hs) hi j) fun o _ => ?_
    cases o with | none => exact Runs.pure trivial | some start => ?_
    refine Runs.bind (RunsL.lift fun s hs => Arr.getInt_runs (rs := fun i => resolver (s.env cfg) i.f) (rsL hcd ht hm hs) hi (j + 1)) fun o _ => ?_
    cases o with | none => exact Runs.pure trivial | some len => ?_
    refine Runs.bind (streamEntries_runs h0 h1 h2 _ _ _) fun o _ => ?_
    cases o with | none => exact Runs.pure trivial | some d => ?_
    exact ih _ _

theorem streamIndex_runs {d : Dict} (hd : TameObj U (.dict d)) : RunsL U (fun o => ∀ l, o = some l → ∀ v ∈ l, TameObj U v) fun i => streamIndex cfg (fun env => resolver env i.f) d := by
  simp only [streamIndex]
  refine Runs.bind (RunsL.lift fun s hs => Dict.getArray_runs (rs := fun i => resolver (s.env cfg) i.f) (rsL hcd ht hm hs) hd _) fun o ho => ?_
  cases o with
  | some l => exact Runs.pure (by rintro _ ⟨⟩; exact ho l rfl)
  | none =>
    refine Runs.bind (RunsL.lift fun s hs => Dict.getNumber_runs (rs := fun i => resolver (s.env cfg) i.f) (rsL hcd ht hm hs) hd _) fun o _ => ?_
    cases o with
    | some x =>
      refine Runs.pure ?_
      rintro _ ⟨⟩ v hv
      simp only [List.mem_cons, List.not_mem_nil, or_false] at hv
      rcases hv with rfl | rfl <;> exact TameObj.nil rfl
    | none => exact Runs.pure (by rintro _ ⟨⟩)

omit hcd ht hm in
theorem width_runs {l : List Obj} (hl : ∀ o ∈ l.take 3, (∀ n g, o ≠ .ref n g) ∧ ∀ x, o = .num x → 0 ≤ x.toInt ∧ x.toInt ≤ 2 ^ 48) {j : Int} (hj : 0 ≤ j ∧ j < 3) :
    RunsL U (fun o : Option Int => ∀ w, o = some w → 0 ≤ w ∧ w ≤ 2 ^ 48) fun i => liftM (fun s => Arr.getInt (resolver (s.env cfg) i.f) l j) := by
  have hmem : ∀ o, l[j.toNat]? = some o → o ∈ l.take 3 := fun o ho => by
    have : (l.take 3)[j.toNat]? = some o := by rw [List.getElem?_take, if_pos (by omega)]; exact ho
    exact List.mem_of_getElem? this
  refine RunsL.lift fun s _ => ?_
  have he : ∀ rs, Arr.getObject rs l j = pure (if j < 0 then none else l[j.toNat]?) := fun rs => arrObject_plain rs fun o ho n g e => (hl o (hmem o ho)).1 n g e
  simp only [Arr.getInt, Arr.getNumber, he]
  rw [if_neg (by omega)]
  cases ho : l[j.toNat]? with
  | none => exact Runs.pure (by rintro w ⟨⟩)
  | some o =>
    cases o with
    | num x => exact Runs.pure (by rintro w ⟨⟩; exact (hl _ (hmem _ ho)).2 x rfl)
    | _ => exact Runs.pure (by rintro w ⟨⟩)

theorem streamBody_runs (o : IndObj) {d : Dict} (hd : TameObj U (.dict d)) (off : Int) : RunsL U (fun _ => True) fun i => streamBody cfg (fun env => resolver env i.f) o d off := by
  simp only [streamBody]
  refine Runs.bind (streamIndex_runs hcd ht hm hd) fun o ho => ?_
  cases o with | none => exact Runs.pure trivial | some index => ?_
  have hw : ∀ rs, Dict.getArray rs d b!"W" = (pure ((d.get? b!"W").bind Obj.asArr?) : M _) := fun rs => by
    rw [Dict.getArray, getObject_plain rs fun o ho n g e => hd.dict.width n g (e ▸ ho)]; rfl
  simp only [hw]
  refine Runs.bind (P := fun o => ∀ l, o = some l → d.get? b!"W" = some (.arr l)) (RunsL.lift fun _ _ => Runs.pure ?_) fun o ho => ?_
  · intro l hl
    cases hd' : d.get? b!"W" with
    | none => rw [hd'] at hl; cases hl
    | some o =>
      rw [hd'] at hl
      cases o <;> cases hl
      rfl
  cases o with | none => exact Runs.pure trivial | some l => ?_
  have hl := hd.dict.widths l (ho l rfl)
  refine Runs.bind (width_runs hl (by omega)) fun w0 h0 => ?_
  cases w0 with | none => exact Runs.pure trivial | some w0 => ?_
  refine Runs.bind (width_runs hl (by omega)) fun w1 h1 => ?_
  cases w1 with | none => exact Runs.pure trivial | some w1 => ?_
  refine Runs.bind (width_runs hl (by omega)) fun w2 h2 => ?_
  cases w2 with | none => exact Runs.pure trivial | some w2 => ?_
  rename_i hidx
  refine Runs.bind (streamSections_runs hcd ht hm (hidx index rfl) (h0 _ rfl) (h1 _ rfl) (h2 _ rfl) _ _ _) fun b _ => ?_
  exact Runs.ite (fun _ => setXref_runs _ _) fun _ => Runs.pure trivial

omit hcd hm in
theorem readDictionaryL_runs : RunsL U (fun d => TameObj U (.dict d)) fun _ => liftM (fun _ => readDictionary cfg.file noDec) := by
  refine RunsL.lift fun _ _ => Runs.const fun s _ => ?_
  obtain ⟨d, t, h1, h2⟩ := readDictionary_tame ht s
  exact ⟨d, t, fun _ => h1, h2, trivial⟩

theorem loadXref_runs (k : Nat) : ∀ (off : Int) (seen : List Int), seen.Nodup →
    (∀ x ∈ seen, -9223372036854775808 ≤ x ∧ x < -9223372036854775808 + (18446744073709551616 : Nat)) →
    (-9223372036854775808 ≤ off ∧ off < 9223372036854775808) → 18446744073709551616 < k + seen.length →
    RunsL U (fun _ => True) fun i => loadXref cfg (fun env => getObject env i.f) (fun env => resolver env i.f) i.fx off seen := by
  induction k with
  | zero =>
    intro off seen hn hb _ hf
    have := nodup_bounded _ _ _ hn hb
    omega
  | succ k ih =>
    intro off seen hn hb hoff hf
    refine Runs.unshift_fx ?_
    simp only [loadXref]
    by_cases h : off ∈ seen
    · simp only [if_pos h]; exact Runs.pure trivial
    simp only [if_neg h]
    have hn' : (off :: seen).Nodup := List.nodup_cons.2 ⟨h, hn⟩
    have hb' : ∀ x ∈ off :: seen, -9223372036854775808 ≤ x ∧ x < -9223372036854775808 + (18446744073709551616 : Nat) := by
      intro x hx
      rcases List.mem_cons.1 hx with rfl | hx
      · omega
      · exact hb x hx
    have hprev : ∀ (d : Dict) (K : Depth → List Int → L (List Int)), TameObj U (.dict d) → (∀ q, RunsL U (fun _ => True) fun f => K f q) →
        RunsL U (fun _ => True) fun i => liftM (fun s => Dict.getInt (resolver (s.env cfg) i.f) d b!"Prev") >>= fun prev =>
          (match (motive := Option Int → L (List Int)) prev with
          | some p => loadXref cfg (fun env => getObject env i.f) (fun env => resolver env i.f) i.fx p (off :: seen) >>= K i
          | none => pure (off :: seen) >>= K i) := by
      intro d K hd hK
      refine Runs.bind (RunsL.lift fun s hs => Dict.getInt_runs (rs := fun i => resolver (s.env cfg) i.f) (rsL hcd ht hm hs) hd _) fun prev hp => ?_
      cases prev with
      | none => exact hK _
      | some p => exact Runs.bind (ih p (off :: seen) hn' hb' (hp p rfl) (by rw [List.length_cons]; omega)) fun q _ => hK q
    refine Runs.bind (seekL_runs off) fun _ _ => ?_
    refine Runs.bind (RunsL.fun _) fun kw _ => ?_
    refine Runs.ite (fun _ => ?_) fun _ => ?_
    · refine Runs.bind (RunsL.fun _) fun xs _ => ?_
      refine Runs.bind (RunsL.fun _) fun _ _ => ?_
      refine Runs.bind (readDictionaryL_runs ht) fun d hd => ?_
      exact hprev d _ hd fun q => Runs.bind (mergeTrailer_runs hd) fun _ _ => Runs.bind (mergeXref_runs xs) fun _ _ => Runs.pure trivial
    · refine Runs.bind (seekL_runs off) fun _ _ => ?_
      refine Runs.bind (RunsL.fun _) fun hd _ => ?_
      obtain ⟨n, g, ok⟩ := hd
      dsimp only
      refine Runs.ite (fun _ => ?_) fun _ => Runs.pure trivial
      refine Runs.bind (setXref_runs _ _) fun _ _ => ?_
      refine Runs.bind (RunsL.fun _) fun o _ => ?_
      refine Runs.bind (RunsL.lift fun s hs => getObject_runs (getsAll_tame (env := s.env cfg) hm hcd ht) n) fun ob hob => ?_
      obtain ⟨on, og, v, st⟩ := ob
      cases v with
      | dict d =>
        refine hprev d _ hob.1 fun q => ?_
        refine Runs.bind (mergeTrailer_runs hob.1) fun _ _ => ?_
        exact Runs.bind (streamBody_runs hcd ht hm _ hob.1 _) fun _ _ => Runs.pure trivial
      | _ => exact Runs.pure trivial

theorem loadAll_runs : ∀ l : List Int, (∀ o ∈ l, 0 ≤ o ∧ o < 9223372036854775808) →
    RunsL U (fun _ => True) fun i => loadAll cfg (fun env => getObject env i.f) (fun env => resolver env i.f) i.fx l := by
  intro l
  induction l with
  | nil => intro _; exact Runs.pure trivial
  | cons o l ih =>
    intro h
    have := h o (by simp)
    refine Runs.bind (loadXref_runs hcd ht hm (18446744073709551616 + 1) o [] List.nodup_nil (by intro x hx; cases hx) (by omega) (by simp)) fun _ _ => ?_
    exact ih fun o ho => h o (by simp [ho])

theorem findObjectsLoop_runs : ∀ k o objs, RunsL U (fun _ => True) fun i => findObjectsLoop cfg (fun env => resolver env i.f) k o objs := by
  intro k
  induction k with
  | zero => intro o objs; exact Runs.pure trivial
  | succ k ih =>
    intro o objs
    simp only [findObjectsLoop]
    cases findRe objRe 0 (cfg.file.drop o) with
    | none => exact Runs.pure trivial
    | some p =>
      refine Runs.bind (seekL_runs _) fun _ _ => ?_
      refine Runs.bind (RunsL.fun _) fun hd _ => ?_
      refine Runs.bind (readDictionaryL_runs ht) fun d hd => ?_
      refine Runs.bind (RunsL.lift fun s hs => Dict.getName_runs (rs := fun i => resolver (s.env cfg) i.f) (rsL hcd ht hm hs) hd _) fun o _ => ?_
      exact ih _ _

theorem loadPlan_runs : RunsL U (fun _ => True) fun i => loadPlan cfg (fun env => resolver env i.f) := by
  simp only [loadPlan]
  refine Runs.bind (RunsL.fun _) fun _ _ => ?_
  refine Runs.bind (findObjectsLoop_runs hcd ht hm _ _ _) fun _ _ => ?_
  exact Runs.bind (RunsL.fun _) fun _ _ => Runs.pure trivial

omit hcd ht hm in
theorem repairAll_runs : ∀ l, RunsL U (fun _ => True) fun _ => repairAll cfg l := by
  intro l
  induction l with
  | nil => exact Runs.pure trivial
  | cons p l ih =>
    refine Runs.bind (P := fun _ => True) (Runs.const fun s hs => ?_) fun _ _ => ih
    have : ∃ t, repairOne cfg p.1 p.2 s = .ok ((), t) ∧ Plain U t := by
      rw [repairOne]
      split
      · dsimp only
        split
        · exact ⟨_, rfl, hs.of rfl rfl⟩
        · exact ⟨_, rfl, hs.of rfl rfl⟩
      · exact ⟨_, rfl, hs.of rfl rfl⟩
    obtain ⟨t, h1, h2⟩ := this
    exact ⟨(), t, fun _ => h1, trivial, h2⟩

omit hcd ht hm in
theorem Runs.ret {σ α : Type} {I : σ → Prop} {P Q : α → Prop} {x : Depth → St σ α} (hx : Runs I P x) (hq : ∀ i, Ret Q (x i)) : Runs I Q x := by
  intro s hs
  obtain ⟨a, t, -, ht, F, hF⟩ := hx s hs
  exact ⟨a, t, hq ⟨F, F, F⟩ s a t (hF _ (by simp [Depth.lvl])), ht, F, hF⟩

omit hcd ht hm in
theorem deref_ret {rs : Resolver} {T : Dict → Prop} {S : Bytes → Prop} (hr : ∀ n s o t, rs n s = .ok (o, t) → IndWith T S o) {o : Obj} (ho : AllDicts T o)
    {s : PS} {v : Obj} {t : PS} (h : deref rs o s = .ok (v, t)) : AllDicts T v := by
  cases o with
  | ref n g =>
    obtain ⟨i, u, h1, h2⟩ := St.bind_ok h
    cases h2
    exact (hr _ _ _ _ h1).1
  | _ => cases h; exact ho

omit hcd ht hm in
theorem getDict_ret {rs : Resolver} {T : Dict → Prop} {S : Bytes → Prop} (hr : ∀ n s o t, rs n s = .ok (o, t) → IndWith T S o) {d : Dict} (hd : ∀ p ∈ d, AllDicts T p.2)
    {k : Bytes} {s : PS} {e : Dict} {t : PS} (h : Dict.getDict rs d k s = .ok (some e, t)) : AllDicts T (.dict e) := by
  rw [Dict.getDict] at h
  obtain ⟨o, u, h1, h2⟩ := St.bind_ok h
  rw [Dict.getObject] at h1
  cases hk : d.get? k with
  | none => rw [hk] at h1; cases h1; cases h2
  | some v =>
    rw [hk] at h1
    obtain ⟨w, u', h3, h4⟩ := St.bind_ok h1
    cases h4
    have := deref_ret hr (hd _ (Assoc.get?_some_mem hk)) h3
    cases w <;> cases h2
    exact this

omit hcd ht hm in
theorem AllDicts.values {T : Dict → Prop} {d : Dict} (h : AllDicts T (.dict d)) : ∀ p ∈ d, AllDicts T p.2 := by
  intro p hp e he
  refine h e ?_
  rw [dictsIn]
  exact List.mem_cons_of_mem _ (mem_dictsInValues.2 ⟨p, hp, he⟩)

/-- `SetPassword` returns -/
theorem setPassword_returns {ls : LS} (hs : ∀ p ∈ ls.trailer, TameObj U p.2) (ord : Order) (pw : Bytes) :
    ∃ e t F, ∀ i : Depth, F ≤ i.lvl → setPassword cfg (fun env => resolver env i.f) ord pw ls = .ok (e, t) := by
  obtain ⟨K, hret⟩ : ∃ K, ∀ sh n s, ∃ o t, resolver ⟨cfg.file, ls.xref, sh, cfg.ext, cfg.verbose⟩ K n s = .ok (o, t) ∧ IndWith (TameFor U) (fun _ => True) o := by
    refine ⟨left ls.xref.keys [] + 1, fun sh n s => ?_⟩
    obtain ⟨o, t, h1, h2⟩ := resolver_returns (getsAll_tame (env := ⟨cfg.file, ls.xref, sh, cfg.ext, cfg.verbose⟩) hm hcd ht) n s
    exact ⟨o, t, h1, h2.1⟩
  obtain ⟨rs, hrs⟩ : ∃ rs : Env → Resolver, ∀ env, rs env = resolver ⟨cfg.file, ls.xref, env.sh, cfg.ext, cfg.verbose⟩ K := ⟨_, fun _ => rfl⟩
  have hr : ∀ env n s o t, rs env n s = .ok (o, t) → IndWith (TameFor U) (fun _ => True) o := by
    intro env n s o t h
    obtain ⟨o', t', h1, h2⟩ := hret env.sh n s
    rw [hrs, h1] at h
    cases h
    exact h2
  obtain ⟨e, ls', h⟩ := C40_partial (ord := ord) cfg rs pw ls (fun env n s => by
      obtain ⟨o', t', h1, h2⟩ := hret env.sh n s
      exact ⟨_, by rw [hrs]; exact h1⟩) (by
    intro env env' s s' enc h p p' hf t u t' hu
    have ht' := (getDict_ret (hr env) hs h).dict
    have hF : enc.get? b!"Filter" ≠ none := by
      intro e
      rw [Dict.getName, Dict.getObject, e] at hf
      cases hf
    rw [Dict.getString] at hu
    obtain ⟨o, u', h1, h2⟩ := St.bind_ok hu
    rw [getObject_plain _ fun o ho => (ht'.user hF o ho).1] at h1
    cases h1
    cases hk : enc.get? b!"U" with
    | none => rw [hk] at h2; cases h2
    | some o =>
      rw [hk] at h2
      cases o <;> cases h2
      exact (ht'.user hF _ hk).2 _ rfl) (by
    intro env env' s s' enc h t cf t' hc k cfd hk env'' w m w' hf v l v' hl
    have h1 := getDict_ret (hr env) hs h
    have h2 := getDict_ret (hr env') h1.values hc
    have ht' := (h2.values _ hk).dict
    have hF : cfd.get? b!"CFM" ≠ none := by
      intro e
      rw [Dict.getName, Dict.getObject, e] at hf
      cases hf
    rw [Dict.getInt, Dict.getNumber, getObject_plain _ fun o ho => (ht'.method hF o ho).1] at hl
    cases hk : cfd.get? b!"Length" with
    | none => rw [hk] at hl; cases hl
    | some o =>
      rw [hk] at hl
      cases o <;> cases hl
      exact (ht'.method hF _ hk).2 _ rfl)
  refine ⟨e, ls', K, fun i hi => ?_⟩
  have hle := setPassword_le (cfg := cfg) (rs := fun env => resolver env K) (rs' := fun env => resolver env i.f)
    (fun env n => resolver_le env (by simp only [Depth.lvl] at hi; omega) n) ord pw ls
  have he : setPassword cfg (fun env => resolver env K) ord pw ls = setPassword cfg rs ord pw ls := by
    rw [setPassword, setPassword, show (fun sh => rs { ls.env cfg with sh := sh }) = fun sh => resolver { ls.env cfg with sh := sh } K from funext fun sh => hrs _]
  rw [he, h] at hle
  rcases hle with hle | hle
  · cases hle
  · exact hle.symm

/-- loading returns; without encryption there is no error -/
theorem load_returns (hlen : cfg.file.length < 9223372036854775808) (ord : Order) (pw : Bytes) :
    ∃ e ls F, (∀ i : Depth, F ≤ i.lvl → load cfg ord i.f i.fx pw LS.init = .ok (e, ls)) ∧ (U → e = none ∧ ls.sh = newSecurityHandler) := by
  obtain ⟨⟨offs, objs⟩, s1, hp, h1, F1, e1⟩ := ((loadPlan_runs hcd ht hm).ret fun i => loadPlan_bounds cfg _ hlen) LS.init ⟨rfl, (by intro p hp; cases hp), fun _ => rfl⟩
  obtain ⟨_, s2, -, h2, F2, e2⟩ := loadAll_runs hcd ht hm offs hp s1 h1
  obtain ⟨_, s3, -, h3, F3, e3⟩ := repairAll_runs (cfg := cfg) (ord.visit objs) s2 h2
  have key : ∀ i : Depth, max F1 (max F2 F3) ≤ i.lvl → load cfg ord i.f i.fx pw LS.init = (match s3.trailer.get? b!"Encrypt" with
        | some e => markEncrypt e >>= fun _ => setPassword cfg (fun env => resolver env i.f) ord.next pw
        | none => pure none) s3 := by
    intro i hi
    rw [load, loadF, bind_of_ok (e1 i (by omega))]
    dsimp only
    rw [bind_of_ok (e2 i (by omega)), bind_of_ok (e3 i (by omega))]
    rfl
  cases he : s3.trailer.get? b!"Encrypt" with
  | none =>
    refine ⟨none, s3, max F1 (max F2 F3), fun i hi => ?_, fun _ => ⟨rfl, h3.sh⟩⟩
    rw [key i hi, he]
    rfl
  | some o =>
    obtain ⟨s4, h4, h5⟩ : ∃ s4, markEncrypt o s3 = .ok ((), s4) ∧ s4.trailer = s3.trailer := by
      unfold markEncrypt
      split
      · split <;> exact ⟨_, rfl, rfl⟩
      · exact ⟨_, rfl, rfl⟩
    obtain ⟨e, t, F, hF⟩ := setPassword_returns hcd ht hm (ls := s4) (h5 ▸ h3.values) ord.next pw
    refine ⟨e, t, max F (max F1 (max F2 F3)), fun i hi => ?_, fun hu => ?_⟩
    · rw [key i (by omega), he]
      dsimp only
      rw [bind_of_ok h4]
      exact hF i (by omega)
    · rw [h3.encrypt hu] at he; cases he

/-- a load that returns gives the same as with enough depth -/
theorem load_shallow {ord : Order} {f fx : Nat} {pw : Bytes} {e : Option EncErr} {ls : LS} (h : load cfg ord f fx pw LS.init = .ok (e, ls))
    (hlen : cfg.file.length < 9223372036854775808) : U → ls.sh = newSecurityHandler := by
  obtain ⟨e', ls', F, h1, h2⟩ := load_returns hcd ht hm hlen ord pw
  have h3 := h1 ⟨max F f, max F fx, F⟩ (by simp only [Depth.lvl]; omega)
  rcases load_le cfg ord (Nat.le_max_right F f) (Nat.le_max_right F fx) pw LS.init with h4 | h4
  · rw [h] at h4; cases h4
  · rw [h, h3] at h4
    cases h4
    exact fun hu => (h2 hu).2

/-- loading and extraction return -/
theorem parseBody_returns (hlen : cfg.file.length < 9223372036854775808) (order : Order) (pw : Bytes) (hmaps : MapsEnd cfg.file cfg.ext cfg.verbose pw) :
    ∃ e xs F, (∀ f fx ft, F ≤ f → F ≤ fx → F ≤ ft → parseBody cfg.file order cfg.ext cfg.verbose f fx ft pw = .ok (e, xs)) ∧ (U → e = none) := by
  obtain ⟨e, ls, F, hF, hu⟩ := load_returns hcd ht hm hlen order pw
  have hdeb : debug cfg.verbose = .ok () := by
    cases h : cfg.verbose with
    | none => exact absurd h hm
    | some b => rfl
  have key : ∀ f fx ft, F ≤ f → F ≤ fx → F ≤ ft → parseBody cfg.file order cfg.ext cfg.verbose f fx ft pw = (match e with
      | some e => .ok (some e, ⟨ls.ps, {}, order.next.next⟩)
      | none => extractAll (ls.env cfg) f ft ls.xref ⟨ls.ps, {}, order.next.next⟩ >>= fun p => .ok (none, p.2)) := by
    intro f fx ft h1 h2 h3
    have h4 := hF ⟨f, fx, ft⟩ (by simp only [Depth.lvl]; omega)
    simp only at h4
    rw [parseBody, hdeb]
    show (load cfg order f fx pw LS.init >>= _) = _
    rw [h4]
    cases e <;> rfl
  cases e with
  | some e => exact ⟨some e, _, F, key, fun h => (hu h).1⟩
  | none =>
    have hg := (getsAll_tame (env := ls.env cfg) hm hcd ht).streams (S' := Loads) (hmaps order F F ls (hF ⟨F, F, F⟩ (by simp only [Depth.lvl]; omega)))
    obtain ⟨_, xs, -, -, G, hG⟩ := extractAll_with hg tame_nil (fun _ h => h.kids) hm ls.xref ⟨ls.ps, {}, order.next.next⟩ trivial
    refine ⟨none, xs, max F G, fun f fx ft h1 h2 h3 => ?_, fun _ => rfl⟩
    rw [key f fx ft (by omega) (by omega) (by omega)]
    have h5 := hG ⟨f, fx, ft⟩ (by simp only [Depth.lvl]; omega)
    simp only at h5
    show (extractAll (ls.env cfg) f ft ls.xref ⟨ls.ps, {}, order.next.next⟩ >>= _) = _
    rw [h5]
    rfl

end

end Pdf
