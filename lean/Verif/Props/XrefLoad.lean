import Verif.Props.Xref
import Verif.Props.GetObject
import Verif.Lemmas.Conv
import Verif.Lemmas.Scan
import Verif.Lemmas.StartXref
/-!
Following /Prev links (C23), the section at `startxref` (C24).
-/

namespace Pdf.Props
open Pdf Pdf.Spec St

/-! ### C23 -/

theorem nodup_bounded : ∀ (n : Nat) (lo : Int) (l : List Int), l.Nodup → (∀ x ∈ l, lo ≤ x ∧ x < lo + n) → l.length ≤ n := by
  intro n
  induction n with
  | zero =>
    intro lo l _ h
    cases l with
    | nil => exact Nat.le_refl _
    | cons x t => have := h x (by simp); omega
  | succ n ih =>
    intro lo l hn h
    have h1 := ih lo (l.erase (lo + n)) (hn.erase _) (by
      intro x hx
      rw [hn.mem_erase_iff] at hx
      have := h x hx.2
      have := hx.1
      omega)
    rw [List.length_erase] at h1
    split at h1 <;> omega

theorem toInt_range (x : F64) : -9223372036854775808 ≤ x.toInt ∧ x.toInt < 9223372036854775808 := by
  unfold F64.toInt
  split
  · dsimp only
    split
    · assumption
    · decide
  · decide
  · decide

theorem getInt_range (r : Resolver) (d : Dict) (k : Bytes) :
    Ret (fun v => ∀ p, v = some p → -9223372036854775808 ≤ p ∧ p < 9223372036854775808) (Dict.getInt r d k) := by
  refine Ret.bind' fun x => Ret.pure ?_
  intro p h
  cases x with
  | none => cases h
  | some x => cases h; exact toInt_range x

theorem liftM_ret {α : Type} {P : α → Prop} {x : LS → M α} (h : ∀ s, Ret P (x s)) : Ret P (liftM x) := by
  intro s b t hb
  cases hr : x s s.ps with
  | ok p =>
    rw [liftM_run (a := p.1) (p := p.2) hr] at hb
    cases hb
    exact h s _ _ _ hr
  | panic w => rw [liftM, hr] at hb; cases hb
  | oof => rw [liftM, hr] at hb; cases hb

theorem liftM_term {α : Type} {x : LS → M α} (h : ∀ s, Term (x s)) : Term (liftM x) := by
  intro s hb
  cases hr : x s s.ps with
  | ok p => rw [liftM_run (a := p.1) (p := p.2) hr] at hb; cases hb
  | panic w => rw [liftM, hr] at hb; cases hb
  | oof => exact h s _ hr

/-- **C23** A section whose offset was already loaded in this chain is not loaded again. -/
theorem C23_once (cfg : Cfg) (get : Env → Int → M IndObj) (rs : Env → Resolver) (f : Nat) {off : Int} {seen : List Int} (h : off ∈ seen) (s : LS) :
    loadXref cfg get rs (f + 1) off seen s = .ok (seen, s) := by
  rw [loadXref, if_pos h]; rfl

/-- **C23** The offsets loaded in one chain, most recent first, are distinct. -/
theorem C23_distinct (cfg : Cfg) (get : Env → Int → M IndObj) (rs : Env → Resolver) : ∀ (f : Nat) (off : Int) (seen : List Int),
    seen.Nodup → Ret (fun seen' => seen'.Nodup ∧ seen <:+ seen' ∧ off ∈ seen') (loadXref cfg get rs f off seen) := by
  intro f
  induction f with
  | zero => intro off seen _; exact Ret.oof
  | succ f ih =>
    intro off seen hn
    rw [loadXref]
    split
    · rename_i h; exact Ret.pure ⟨hn, List.suffix_refl _, h⟩
    · rename_i h
      have hn' : (off :: seen).Nodup := List.nodup_cons.2 ⟨h, hn⟩
      have h0 : (off :: seen).Nodup ∧ seen <:+ off :: seen ∧ off ∈ off :: seen := ⟨hn', ⟨[off], rfl⟩, by simp⟩
      have h1 : ∀ p, Ret (fun seen' => seen'.Nodup ∧ seen <:+ seen' ∧ off ∈ seen') (loadXref cfg get rs f p (off :: seen)) := fun p =>
        (ih p (off :: seen) hn').mono fun a ⟨a1, a2, a3⟩ => ⟨a1, List.IsSuffix.trans ⟨[off], rfl⟩ a2, a2.subset (by simp)⟩
      repeat' first
        | exact Ret.pure h0
        | refine Ret.bind (h1 _) fun a ha => ?_
        | refine Ret.bind (P := fun seen' => seen'.Nodup ∧ seen <:+ seen' ∧ off ∈ seen') (Ret.pure h0) fun a ha => ?_
        | exact Ret.pure ‹_›
        | refine Ret.bind' fun _ => ?_
        | split
        | dsimp only

theorem readDictionary_ok (file : Bytes) (s : PS) : ∃ d s', readDictionary file noDec s = .ok (d, s') := by
  rw [readDictionary]
  split
  · exact ⟨_, _, rfl⟩
  · rename_i s1 _
    have h1 := (readObject_spec file noDec (objFuel file)).2.2 s1 []
    have h2 := (lObj_good (dec := noDec) (by intro b h; cases h) (objFuel file)).2.2 (rest file s1) []
      (by have := rest_length_le file s1; rw [objFuel]; omega)
    generalize dictLoop file noDec (objFuel file) s1 [] = x at *
    generalize lDict noDec (objFuel file) (rest file s1) [] = y at *
    match x, y, h1, h2 with
    | .ok p, .ok _, _, _ => exact ⟨p.1, p.2, rfl⟩
    | .panic _, .panic _, _, ⟨_, h⟩ => cases h

theorem streamEntries_term (w0 w1 w2 : Int) : ∀ n num d, Term (streamEntries w0 w1 w2 n num d) := by
  have hbe : ∀ d w, Term (St.ofRes (readBE d w) : L (Option Int × Bytes)) := by
    intro d w
    refine Term.ofRes ?_
    rw [readBE]
    split
    · intro h; cases h
    · split <;> (intro h; cases h)
  intro n
  induction n with
  | zero => intro num d; exact Term.pure _
  | succ n ih =>
    intro num d
    rw [streamEntries]
    repeat' first
      | exact Term.pure _
      | exact ih _ _
      | refine Term.bind (hbe _ _) fun _ => ?_
      | refine Term.bind (x := setXref _ _) (by intro s h; cases h) fun _ => ?_
      | split
      | dsimp only

theorem setXref_term (n : Int) (e : XrefEntry) : Term (setXref n e) := by intro s h; cases h
theorem mergeTrailer_term (d : Dict) : Term (mergeTrailer d) := by intro s h; cases h
theorem mergeXref_term (d : Assoc Int XrefEntry) : Term (mergeXref d) := by intro s h; cases h

section
variable {cfg : Cfg} {get : Nat → Env → Int → M IndObj} {rs : Nat → Env → Resolver} (hrs : ∀ env, env.file = cfg.file → ∀ n, Conv fun f => rs f env n)
include hrs

theorem streamSections_conv (index : List Obj) (w0 w1 w2 : Int) : ∀ k i d, Conv fun f => streamSections cfg (rs f) index w0 w1 w2 k i d := by
  intro k
  induction k with
  | zero => intro i d; exact Conv.pure _
  | succ k ih =>
    intro i d
    simp only [streamSections]
    refine (liftM_conv fun s => Arr.getInt_conv (hrs _ rfl) _ _).bind fun o => ?_
    cases o with | none => exact Conv.pure _ | some o => ?_
    refine (liftM_conv fun s => Arr.getInt_conv (hrs _ rfl) _ _).bind fun o => ?_
    cases o with | none => exact Conv.pure _ | some o => ?_
    refine (Conv.const (streamEntries_term _ _ _ _ _ _)).bind fun o => ?_
    cases o with | none => exact Conv.pure _ | some o => ?_
    exact ih _ _

theorem streamIndex_conv (d : Dict) : Conv fun f => streamIndex cfg (rs f) d := by
  simp only [streamIndex]
  refine (liftM_conv fun s => Dict.getArray_conv (hrs _ rfl) _ _).bind fun o => ?_
  cases o with | some o => exact Conv.pure _ | none => ?_
  refine (liftM_conv fun s => Dict.getNumber_conv (hrs _ rfl) _ _).bind fun o => ?_
  cases o <;> exact Conv.pure _

theorem streamBody_conv (o : IndObj) (d : Dict) (off : Int) : Conv fun f => streamBody cfg (rs f) o d off := by
  simp only [streamBody]
  refine (streamIndex_conv hrs d).bind fun o => ?_
  cases o with | none => exact Conv.pure _ | some o => ?_
  refine (liftM_conv fun s => Dict.getArray_conv (hrs _ rfl) _ _).bind fun o => ?_
  cases o with | none => exact Conv.pure _ | some o => ?_
  refine (liftM_conv fun s => Arr.getInt_conv (hrs _ rfl) _ _).bind fun o => ?_
  cases o with | none => exact Conv.pure _ | some o => ?_
  refine (liftM_conv fun s => Arr.getInt_conv (hrs _ rfl) _ _).bind fun o => ?_
  cases o with | none => exact Conv.pure _ | some o => ?_
  refine (liftM_conv fun s => Arr.getInt_conv (hrs _ rfl) _ _).bind fun o => ?_
  cases o with | none => exact Conv.pure _ | some o => ?_
  refine (streamSections_conv hrs _ _ _ _ _ _ _).bind fun b => ?_
  exact Conv.ite (Conv.const (setXref_term _ _)) (Conv.pure _)

theorem loadXref_conv (hget : ∀ env, env.file = cfg.file → ∀ n, Conv fun f => get f env n) : ∀ (fx : Nat) (off : Int) (seen : List Int), seen.Nodup →
    (∀ x ∈ seen, -9223372036854775808 ≤ x ∧ x < -9223372036854775808 + (18446744073709551616 : Nat)) →
      (-9223372036854775808 ≤ off ∧ off < 9223372036854775808) →
      18446744073709551616 < fx + seen.length → Conv fun f => loadXref cfg (get f) (rs f) fx off seen := by
  intro fx
  induction fx with
  | zero =>
    intro off seen hn hb _ hf
    have := nodup_bounded _ _ _ hn hb
    omega
  | succ fx ih =>
    intro off seen hn hb hoff hf
    simp only [loadXref]
    by_cases h : off ∈ seen
    · simp only [if_pos h]; exact Conv.pure _
    simp only [if_neg h]
    have hn' : (off :: seen).Nodup := List.nodup_cons.2 ⟨h, hn⟩
    have hb' : ∀ x ∈ off :: seen, -9223372036854775808 ≤ x ∧ x < -9223372036854775808 + (18446744073709551616 : Nat) := by
      intro x hx
      rcases List.mem_cons.1 hx with rfl | hx
      · omega
      · exact hb x hx
    have h1 : ∀ p, (-9223372036854775808 ≤ p ∧ p < 9223372036854775808) → Conv fun f => loadXref cfg (get f) (rs f) fx p (off :: seen) := fun p hp =>
      ih p (off :: seen) hn' hb' hp (by rw [List.length_cons]; omega)
    have hprev : ∀ (d : Dict) (K : Nat → List Int → L (List Int)), (∀ q, Conv fun f => K f q) →
        Conv fun f => liftM (fun s => Dict.getInt (rs f (s.env cfg)) d b!"Prev") >>= fun prev =>
          (match (motive := Option Int → L (List Int)) prev with
          | some p => loadXref cfg (get f) (rs f) fx p (off :: seen) >>= K f
          | none => pure (off :: seen) >>= K f) := by
      intro d K hK
      refine Conv.bind' (liftM_conv fun s => Dict.getInt_conv (hrs _ rfl) _ _) (fun f => liftM_ret fun s => getInt_range _ _ _) fun prev hp => ?_
      cases prev with
      | none => exact Conv.bind (Conv.pure _) hK
      | some p => exact Conv.bind (h1 p (hp p rfl)) hK
    refine (Conv.const (liftM_term (x := fun _ => seekM off) fun s t h => by cases h)).bind fun _ => ?_
    refine (Conv.const (liftM_term fun s => Term.ofFun _)).bind fun kw => ?_
    refine Conv.ite ?_ ?_
    · refine (Conv.const (liftM_term fun s => Term.ofFun _)).bind fun xs => ?_
      refine (Conv.const (liftM_term fun s => Term.ofFun _)).bind fun _ => ?_
      refine (Conv.const (liftM_term (x := fun _ => readDictionary cfg.file noDec) fun s t h => by
          obtain ⟨d, s', e⟩ := readDictionary_ok cfg.file t; rw [e] at h; cases h)).bind fun d => ?_
      exact hprev d _ fun q => Conv.const fun s h => by cases h
    · refine (Conv.const (liftM_term (x := fun _ => seekM off) fun s t h => by cases h)).bind fun _ => ?_
      refine (Conv.const (liftM_term fun s => Term.ofFun _)).bind fun hd => ?_
      obtain ⟨n, g, ok⟩ := hd
      dsimp only
      refine Conv.ite ?_ (Conv.pure _)
      refine (Conv.const (setXref_term _ _)).bind fun _ => ?_
      refine (Conv.const (liftM_term fun s => Term.ofFun _)).bind fun _ => ?_
      refine (liftM_conv fun s => hget _ rfl _).bind fun o => ?_
      obtain ⟨on, og, v, st⟩ := o
      cases v with
      | dict d =>
        refine hprev d _ fun q => ?_
        refine (Conv.const (mergeTrailer_term _)).bind fun _ => ?_
        exact (streamBody_conv hrs _ _ _).bind fun _ => Conv.pure _
      | _ => exact Conv.pure _

/-- 64-bit offsets -/
def Off64 (o : Int) : Prop := -9223372036854775808 ≤ o ∧ o < 9223372036854775808

theorem loadXref_settles (hget : ∀ env, env.file = cfg.file → ∀ n, Conv fun f => get f env n) {fx : Nat} (hfx : 18446744073709551616 < fx) {off : Int} (h : Off64 off) :
    Conv fun f => loadXref cfg (get f) (rs f) fx off [] :=
  loadXref_conv hrs hget fx off [] List.nodup_nil (by intro x hx; cases hx) h hfx

theorem loadAll_conv (hget : ∀ env, env.file = cfg.file → ∀ n, Conv fun f => get f env n) {fx : Nat} (hfx : 18446744073709551616 < fx) :
    ∀ l : List Int, (∀ o ∈ l, Off64 o) → Conv fun f => loadAll cfg (get f) (rs f) fx l := by
  intro l
  induction l with
  | nil => intro _; exact Conv.pure _
  | cons o l ih =>
    intro h
    refine Conv.bind (loadXref_settles hrs hget hfx (h o (by simp))) fun _ => ?_
    exact ih fun o ho => h o (by simp [ho])

theorem findObjectsLoop_conv : ∀ k o objs, Conv fun f => findObjectsLoop cfg (rs f) k o objs := by
  intro k
  induction k with
  | zero => intro o objs; exact Conv.pure _
  | succ k ih =>
    intro o objs
    simp only [findObjectsLoop]
    cases findRe objRe 0 (cfg.file.drop o) with
    | none => exact Conv.pure _
    | some p =>
      refine (Conv.const (liftM_term (x := fun _ => seekM _) fun s t h => by cases h)).bind fun _ => ?_
      refine (Conv.const (liftM_term fun s => Term.ofFun _)).bind fun _ => ?_
      refine (Conv.const (liftM_term (x := fun _ => readDictionary cfg.file noDec) fun s t h => by
          obtain ⟨d, s', e⟩ := readDictionary_ok cfg.file t; rw [e] at h; cases h)).bind fun d => ?_
      refine (liftM_conv fun s => Dict.getName_conv (hrs _ rfl) _ _).bind fun o => ?_
      exact ih _ _

theorem loadPlan_conv : Conv fun f => loadPlan cfg (rs f) := by
  simp only [loadPlan]
  refine (Conv.const (liftM_term fun s => Term.ofFun _)).bind fun _ => ?_
  refine (findObjectsLoop_conv hrs _ _ _).bind fun _ => ?_
  refine (Conv.const (liftM_term fun s => Term.ofFun _)).bind fun _ => ?_
  exact Conv.pure _

theorem setPassword_conv (ord : Order) (pw : Bytes) : Conv fun f => setPassword cfg (rs f) ord pw := by
  have h : ∀ s : LS, Conv fun f => secInit cfg.ext (fun sh => rs f { s.env cfg with sh := sh }) ord pw s.trailer s.sh := fun s =>
    secInit_conv (rs := fun f sh => rs f { s.env cfg with sh := sh }) (fun sh n => hrs _ rfl n) _ _ _ _ _
  refine ⟨fun f g hfg s => ?_, fun s => ?_⟩
  · have h1 : secInit cfg.ext (fun sh => rs f { s.env cfg with sh := sh }) ord pw s.trailer s.sh s.ps = .oof ∨
        secInit cfg.ext (fun sh => rs f { s.env cfg with sh := sh }) ord pw s.trailer s.sh s.ps = secInit cfg.ext (fun sh => rs g { s.env cfg with sh := sh }) ord pw s.trailer s.sh s.ps :=
      (h s).1 f g hfg s.ps
    rcases h1 with h1 | h1
    · left
      simp only [setPassword, h1]; rfl
    · right
      simp only [setPassword, h1]
  · obtain ⟨f, hf⟩ := (h s).2 s.ps
    refine ⟨f, ?_⟩
    have hf : secInit cfg.ext (fun sh => rs f { s.env cfg with sh := sh }) ord pw s.trailer s.sh s.ps ≠ .oof := hf
    simp only [setPassword]
    cases hr : secInit cfg.ext (fun sh => rs f { s.env cfg with sh := sh }) ord pw s.trailer s.sh s.ps with
    | oof => exact absurd hr hf
    | panic w => intro h; cases h
    | ok p => intro h; cases h

end

theorem findRe_bounds (re : Bytes → List Bytes) : ∀ (s : Bytes) (i a b : Nat), findRe re i s = some (a, b) → i ≤ a ∧ a ≤ i + s.length := by
  intro s
  induction s with
  | nil =>
    intro i a b h
    rw [findRe] at h
    split at h
    · cases h; exact ⟨Nat.le_refl _, Nat.le_refl _⟩
    · cases h
  | cons c t ih =>
    intro i a b h
    rw [findRe] at h
    split at h
    · cases h; exact ⟨Nat.le_refl _, by omega⟩
    · obtain ⟨h1, h2⟩ := ih _ _ _ h
      rw [List.length_cons]; omega

theorem findXrefLoop_bounds (file : Bytes) : ∀ (f o : Nat) (acc : List Int), (∀ x ∈ acc, 0 ≤ x ∧ x ≤ (file.length : Int)) →
    ∀ x ∈ findXrefLoop file f o acc, 0 ≤ x ∧ x ≤ (file.length : Int) := by
  intro f
  induction f with
  | zero => intro o acc h; exact h
  | succ f ih =>
    intro o acc h
    rw [findXrefLoop]
    split
    · exact h
    · rename_i i j he
      refine ih _ _ ?_
      intro x hx
      rcases List.mem_append.1 hx with hx | hx
      · exact h x hx
      · simp only [List.mem_singleton] at hx
        subst hx
        obtain ⟨h1, h2⟩ := findRe_bounds _ _ _ _ _ he
        rw [List.length_drop] at h2
        by_cases ho : o ≤ file.length
        · omega
        · rw [List.drop_eq_nil_of_le (by omega)] at he
          rw [findRe] at he
          have : (xrefRe []).head? = none := rfl
          rw [this] at he
          cases he

theorem findObjectsLoop_bounds (cfg : Cfg) (rs : Env → Resolver) : ∀ (f o : Nat) (objs : Assoc Int XrefEntry), (∀ x ∈ objs, 0 ≤ x.2.offset ∧ x.2.offset ≤ (cfg.file.length : Int)) →
    Ret (fun l : Assoc Int XrefEntry => ∀ x ∈ l, 0 ≤ x.2.offset ∧ x.2.offset ≤ (cfg.file.length : Int)) (findObjectsLoop cfg rs f o objs) := by
  intro f
  induction f with
  | zero => intro o objs h; exact Ret.pure h
  | succ f ih =>
    intro o objs h
    rw [findObjectsLoop]
    cases he : findRe objRe 0 (cfg.file.drop o) with
    | none => exact Ret.pure h
    | some p =>
      obtain ⟨i, j⟩ := p
      dsimp only
      refine Ret.bind' fun _ => Ret.bind' fun hd => ?_
      obtain ⟨n, g, ok⟩ := hd
      refine Ret.bind' fun d => Ret.bind' fun t => ?_
      refine ih _ _ ?_
      intro x hx
      rcases Assoc.mem_set hx with rfl | hx
      · obtain ⟨h1, h2⟩ := findRe_bounds _ _ _ _ _ he
        rw [List.length_drop] at h2
        dsimp only
        by_cases ho : o ≤ cfg.file.length
        · omega
        · rw [List.drop_eq_nil_of_le (by omega)] at he
          rw [findRe] at he
          have : (objRe []).head? = none := rfl
          rw [this] at he
          cases he
      · exact h x hx

theorem mem_insertSorted {x y : Int} : ∀ {l : List Int}, y ∈ insertSorted x l ↔ y = x ∨ y ∈ l := by
  intro l
  induction l with
  | nil => simp [insertSorted]
  | cons z l ih =>
    rw [insertSorted]
    split
    · simp
    · simp only [List.mem_cons, ih]
      constructor
      · rintro (h | h | h)
        · exact .inr (.inl h)
        · exact .inl h
        · exact .inr (.inr h)
      · rintro (h | h | h)
        · exact .inr (.inl h)
        · exact .inl h
        · exact .inr (.inr h)

theorem mem_sortInts {y : Int} {l : List Int} : y ∈ sortInts l ↔ y ∈ l := by
  induction l with
  | nil => simp [sortInts]
  | cons x l ih =>
    show y ∈ insertSorted x (sortInts l) ↔ _
    rw [mem_insertSorted, ih, List.mem_cons]

theorem start_bounds (file : Bytes) (s : PS) : ∀ o, (getStartXrefOffset file s).1 = some o → 0 ≤ o ∧ o < 9223372036854775808 := by
  intro o h
  rw [getStart_eq, startOffset] at h
  split at h
  · cases h
  · split at h
    · rename_i hlt
      cases h
      exact ⟨Int.natCast_nonneg _, Int.ofNat_lt.2 hlt⟩
    · cases h

attribute [local irreducible] getStartXrefOffset

/-- The offsets of the sections that `Load` loads. -/
theorem loadPlan_bounds (cfg : Cfg) (rs : Env → Resolver) (hlen : cfg.file.length < 9223372036854775808) :
    Ret (fun p : List Int × Assoc Int XrefEntry => ∀ o ∈ p.1, 0 ≤ o ∧ o < 9223372036854775808) (loadPlan cfg rs) := by
  have hlen' : (cfg.file.length : Int) < 9223372036854775808 := by omega
  rw [loadPlan]
  refine Ret.bind (P := fun l : List Int => ∀ x ∈ l, 0 ≤ x ∧ x ≤ (cfg.file.length : Int)) (liftM_ret fun s => ?_) fun l hl => ?_
  · intro t a u h
    rw [St.ofFun_run] at h
    cases h
    exact findXrefLoop_bounds cfg.file _ _ _ (by intro x hx; cases hx)
  refine Ret.bind (findObjectsLoop_bounds cfg rs _ 0 [] (by intro x hx; cases hx)) fun objs hobjs => ?_
  refine Ret.bind (P := fun o : Option Int => ∀ x, o = some x → 0 ≤ x ∧ x < 9223372036854775808) (liftM_ret fun s => ?_) fun start hstart => ?_
  · intro t a u h
    rw [St.ofFun_run] at h
    have h' : getStartXrefOffset cfg.file t = (a, u) := Res.ok.inj h
    have := start_bounds cfg.file t
    rw [h'] at this
    exact this
  refine Ret.pure ?_
  intro o ho
  rcases List.mem_append.1 ho with ho | ho
  · rw [mem_sortInts] at ho
    rcases List.mem_append.1 ho with ho | ho
    · have := hl o ho; omega
    · obtain ⟨x, hx, rfl⟩ := List.mem_map.1 ho
      have := hobjs x (List.mem_filter.1 hx).1
      omega
  · cases start with
    | none => cases ho
    | some x =>
      simp only [Option.toList, List.mem_singleton] at ho
      subst ho
      exact hstart _ rfl

theorem repairOne_term (cfg : Cfg) (n : Int) (e : XrefEntry) : Term (repairOne cfg n e) := by
  intro s
  rw [repairOne]
  split
  · dsimp only
    split <;> exact Res.ok_ne_oof
  · exact Res.ok_ne_oof

theorem repairAll_term (cfg : Cfg) : ∀ l, Term (repairAll cfg l) := by
  intro l
  induction l with
  | nil => exact Term.pure _
  | cons p l ih => exact Term.bind (repairOne_term cfg p.1 p.2) fun _ => ih

theorem markEncrypt_term (e : Obj) : Term (markEncrypt e) := by
  intro s
  unfold markEncrypt
  split
  · split <;> exact Res.ok_ne_oof
  · exact Res.ok_ne_oof

theorem loadF_conv {cfg : Cfg} {get : Nat → Env → Int → M IndObj} {rs : Nat → Env → Resolver} (hrs : ∀ env, env.file = cfg.file → ∀ n, Conv fun f => rs f env n)
    (hget : ∀ env, env.file = cfg.file → ∀ n, Conv fun f => get f env n) (hlen : cfg.file.length < 9223372036854775808) {fx : Nat} (hfx : 18446744073709551616 < fx) (ord : Order) (pw : Bytes) :
    Conv fun f => loadF cfg (get f) (rs f) ord fx pw := by
  simp only [loadF]
  refine Conv.bind' (loadPlan_conv hrs) (fun f => loadPlan_bounds cfg (rs f) hlen) fun p hp => ?_
  obtain ⟨offs, objs⟩ := p
  dsimp only
  refine (loadAll_conv hrs hget hfx offs fun o ho => ?_).bind fun _ => ?_
  · have := hp o ho
    exact ⟨by omega, this.2⟩
  refine (Conv.const (repairAll_term cfg _)).bind fun _ => ?_
  refine (Conv.const fun s h => by cases h).bind fun o => ?_
  cases o with
  | none => exact Conv.pure _
  | some e =>
    dsimp only
    refine (Conv.const (markEncrypt_term e)).bind fun _ => ?_
    exact setPassword_conv hrs _ pw

/-! ### C23, C61: loading returns -/

/-- Wherever an object of this file is read from, if a stream follows it, its `Type`, `Filter` and
`DecodeParms` are direct. -/
def DirectStreams (file : Bytes) : Prop :=
  ∀ env : Env, env.file = file → ∀ n v r, ValueAt env n v r → StreamNext r → ∀ d : Dict, v = .dict d →
    ∀ k ∈ [b!"Type", b!"Filter", b!"DecodeParms"], ∀ o, d.get? k = some o → ∀ m, ¬ Refers o m

theorem direct_get {file : Bytes} (h : DirectStreams file) {env : Env} (he : env.file = file) (n : Int) : Conv fun f => getObject env f n :=
  ⟨fun _ _ hfg => getObject_le env hfg n, fun s => ⟨0, C20_terminates_partial (A := fun _ => False) (ρ := fun _ => 0) (B := 0) (fun _ h => h.elim)
    (fun n v r hv hs d hd k hk o ho m hm => h env he n v r hv hs d hd k hk o ho m hm) (fun _ _ _ h => h.elim) n s⟩⟩

theorem direct_resolver {file : Bytes} (h : DirectStreams file) {env : Env} (he : env.file = file) (n : Int) : Conv fun f => resolver env f n :=
  ⟨fun _ _ hfg => resolver_le env hfg n, fun s => C15_terminates (fun n s => (direct_get h he n).2 s) n s⟩

/-- **C23, partial** Loading a section returns (or panics), whatever the `Prev` links are: they may form
cycles or run through the whole file. What is missing: files whose streams give their filters by
reference, where reading the section's own stream may not return (`C23_terminates_false`). -/
theorem C23_terminates_partial {cfg : Cfg} (h : DirectStreams cfg.file) {fx : Nat} (hfx : 18446744073709551616 < fx) {off : Int} (ho : Off64 off) (s : LS) :
    ∃ f, loadXref cfg (fun env => getObject env f) (fun env => resolver env f) fx off [] s ≠ .oof :=
  (loadXref_settles (get := fun f env => getObject env f) (rs := fun f env => resolver env f) (fun _ he => direct_resolver h he) (fun _ he => direct_get h he) hfx ho).2 s

/-- **C61, partial** `Load` returns (or panics) on every file, if no stream gives its filters by reference.
See `C61_false` for the others. -/
theorem C61_partial {cfg : Cfg} (h : DirectStreams cfg.file) (hlen : cfg.file.length < 9223372036854775808) {fx : Nat} (hfx : 18446744073709551616 < fx) (ord : Order) (pw : Bytes) (s : LS) :
    ∃ f, load cfg ord f fx pw s ≠ .oof :=
  (loadF_conv (get := fun f env => getObject env f) (rs := fun f env => resolver env f) (fun _ he => direct_resolver h he) (fun _ he => direct_get h he) hlen hfx ord pw).2 s

/-- A file in which the word `stream` does not occur. -/
theorem direct_noStream {file : Bytes} (h : ∀ a b, file ≠ a ++ (b!"stream" ++ b)) : DirectStreams file := by
  rintro env rfl n v r hv ⟨w, r', hr, -, -⟩
  cases hv with
  | @mk e s v err s' _ _ _ =>
    exfalso
    refine h (env.file.take s'.pos ++ w) r' ?_
    rw [List.append_assoc, ← hr, List.take_append_drop]

/-- A table that names itself as the previous one. -/
def selfPrev : Bytes := b!"xref\n0 1\n0000000000 65535 f \ntrailer<</Prev 0>>"

theorem selfPrev_direct : DirectStreams selfPrev :=
  direct_noStream (not_infix (by decide +kernel))

/-- The hypotheses hold for it. -/
example (ext : Ext) (s : LS) : ∃ f, loadXref ⟨selfPrev, ext, some false⟩ (fun env => getObject env f) (fun env => resolver env f) 18446744073709551617 0 [] s ≠ .oof :=
  C23_terminates_partial selfPrev_direct (by decide) (by unfold Off64; decide) s

example (ext : Ext) (s : LS) : ∃ f, load ⟨selfPrev, ext, some false⟩ default f 18446744073709551617 [] s ≠ .oof :=
  C61_partial selfPrev_direct (by show selfPrev.length < _; decide) (by decide) default [] s

/-- A cross reference stream whose `/Filter` is a reference to the stream itself. -/
def selfXref : Bytes := b!"1 0 obj<</Type/XRef/Filter 1 0 R>>stream\nx\nendstream"

/-- The environment in which `Load` reads it. -/
def selfXrefEnv (ext : Ext) : Env := ⟨selfXref, [(1, ⟨0, 0, 1, false, false⟩)], LS.init.sh, ext, some false⟩

theorem selfXref_get (ext : Ext) : ∀ f s, getObject (selfXrefEnv ext) f 1 s = .oof := by
  have hD : ObjAt (.dict (dictOf [(b!"Type", .name b!"XRef"), (b!"Filter", .ref 1 0)])) b!"<</Type/XRef/Filter 1 0 R>>" b!"stream\nx\nendstream" [] := by
    have h1 : ObjAt (.ref 1 0) b!"1 0 R" (b!">>" ++ b!"stream\nx\nendstream") [] := ref_text (b := 1) (by decide) (by rintro b t ⟨⟩; decide)
    have h2 : DictAt [(b!"Filter", .ref 1 0)] b!"/Filter 1 0 R>>" b!"stream\nx\nendstream" [] :=
      .cons (w := []) (kt := b!"Filter") (w' := b!" ") (u := b!">>") .nil (nameText_plain _ (by decide)) (.ws (by decide) .nil) (by rintro b t ⟨⟩; decide) h1 (.nil (w := []) .nil)
    have h3 : ObjAt (.name b!"XRef") b!"/XRef" (b!"/Filter 1 0 R>>" ++ b!"stream\nx\nendstream") [] := .name (nameText_plain _ (by decide)) (by rintro b t ⟨⟩; decide)
    have h4 : DictAt [(b!"Type", .name b!"XRef"), (b!"Filter", .ref 1 0)] b!"/Type/XRef/Filter 1 0 R>>" b!"stream\nx\nendstream" [] :=
      .cons (w := []) (kt := b!"Type") (w' := []) (u := b!"/Filter 1 0 R>>") .nil (nameText_plain _ (by decide)) .nil (by rintro b t ⟨⟩; decide) h3 h2
    exact .dict h4
  have hval : ∀ rs s, ∃ s1, getObjectF (selfXrefEnv ext) rs 1 s =
      (getStreamF (selfXrefEnv ext) rs 1 ⟨0, 0, 1, false, false⟩ (.dict [(b!"Type", .name b!"XRef"), (b!"Filter", .ref 1 0)]) >>=
      fun st => pure ⟨1, 0, .dict [(b!"Type", .name b!"XRef"), (b!"Filter", .ref 1 0)], st⟩ : M IndObj) s1 ∧ selfXref.drop s1.pos = b!"stream\nx\nendstream" := by
    intro rs s
    obtain ⟨s1, h1, p1, -, -⟩ := getObjectF_value (env := selfXrefEnv ext) (n := 1) (e := ⟨0, 0, 1, false, false⟩) (h := b!"1 0 obj") (w := [])
      ⟨rfl, rfl, by decide, rfl⟩ twoHeader1 .nil (by rintro b t ⟨⟩; decide) hD (g := fun b => b) (fun b => rfl) rs s
    refine ⟨s1, ?_, by rw [p1]; rfl⟩
    simpa [mapStr, mapStrD, dictOf, Assoc.set] using h1
  have hstream : ∀ (rs : Resolver) (s : PS), selfXref.drop s.pos = b!"stream\nx\nendstream" → (∀ s, rs 1 s = .oof) →
      getStreamF (selfXrefEnv ext) rs 1 ⟨0, 0, 1, false, false⟩ (.dict [(b!"Type", .name b!"XRef"), (b!"Filter", .ref 1 0)]) s = .oof := by
    intro rs s hs h
    have hk : (readKeyword (selfXrefEnv ext).file s).1 = b!"stream" := by
      rw [(readKeyword_spec _ s).1, rest]
      show (lKeyword (selfXref.drop s.pos)).1 = _
      rw [hs]; decide
    rw [getStreamF, St.ofFun_bind, if_pos hk]
    refine bind_of_oof ?_
    rw [filterList]
    refine bind_of_oof ?_
    rw [Dict.getArray, Dict.getObject_ref (n := 1) (g := 0) rfl]
    exact bind_of_oof (bind_of_oof (h _))
  intro f
  induction f with
  | zero =>
    intro s
    obtain ⟨s1, h1, p1⟩ := hval (resolver (selfXrefEnv ext) 0) s
    rw [getObject, h1, bind_of_oof]
    exact hstream _ _ p1 fun s => rfl
  | succ f ih =>
    intro s
    obtain ⟨s1, h1, p1⟩ := hval (resolver (selfXrefEnv ext) (f + 1)) s
    rw [getObject, h1, bind_of_oof]
    refine hstream _ _ p1 fun s => ?_
    rw [resolver, keepOffset, resolve_succ, if_neg (by simp), bind_of_oof (ih s)]
    rfl

theorem selfXref_load (ext : Ext) (f fx : Nat) {s : LS} (hx : s.xref = []) (hsh : s.sh = LS.init.sh) :
    loadXref ⟨selfXref, ext, some false⟩ (fun env => getObject env f) (fun env => resolver env f) fx 0 [] s = .oof := by
  cases fx with
  | zero => rfl
  | succ fx =>
    rw [loadXref, if_neg (by simp)]
    rw [liftM_bind (a := ()) (p := seek s.ps 0) rfl]
    have hk : (readKeyword selfXref (seek s.ps 0)).1 = b!"1" := by
      rw [(readKeyword_spec _ _).1]
      show (lKeyword selfXref).1 = _
      decide
    rw [liftM_bind (a := b!"1") (p := (readKeyword selfXref (seek s.ps 0)).2) (by show Res.ok _ = _; rw [← hk])]
    rw [if_neg (by decide)]
    rw [liftM_bind (a := ()) (p := seek (readKeyword selfXref (seek s.ps 0)).2 0) rfl]
    obtain ⟨n, g, hn, hg, e1, st1⟩ := readObjectHeader_text twoHeader1 (r := b!"<</Type/XRef/Filter 1 0 R>>stream\nx\nendstream") (by rintro b t ⟨⟩; decide) selfXref
      (seek (readKeyword selfXref (seek s.ps 0)).2 0) rfl
    rw [isInt64_unique (by decide) hn, isInt64_unique (by decide) hg] at e1
    rw [liftM_bind (a := ((1, 0, true) : Int × Int × Bool)) (p := (readObjectHeader selfXref (seek (readKeyword selfXref (seek s.ps 0)).2 0)).2)
      (by show Res.ok _ = Res.ok _; rw [show ((1, 0, true) : Int × Int × Bool) = (((Spec.decVal [1] : Nat) : Int), ((Spec.decVal [0] : Nat) : Int), true) from rfl, ← e1])]
    dsimp only
    rw [if_pos rfl]
    refine (bind_of_ok (a := ()) (t := _) rfl).trans ?_
    refine (bind_of_ok rfl).trans ?_
    refine bind_of_oof ?_
    show (getObject _ f 1 _ >>= _) = _
    have : ∀ ps, getObject ⟨selfXref, s.xref.set 1 ⟨0, 0, 1, false, false⟩, s.sh, ext, some false⟩ f 1 ps = .oof := by
      intro ps
      rw [hx, hsh]
      exact selfXref_get ext f ps
    exact congrArg (· >>= _) (this _)

/-- **C23 fails** for a cross reference stream that gives itself as its filter: loading it does not
return. -/
theorem C23_terminates_false (ext : Ext) : ¬ ∀ (cfg : Cfg) (fx : Nat) (off : Int) (s : LS), cfg.ext = ext → 18446744073709551616 < fx → Off64 off →
    ∃ f, loadXref cfg (fun env => getObject env f) (fun env => resolver env f) fx off [] s ≠ .oof := by
  intro h
  obtain ⟨f, hf⟩ := h ⟨selfXref, ext, some false⟩ 18446744073709551617 0 LS.init rfl (by decide) (by unfold Off64; decide)
  exact hf (selfXref_load ext f _ rfl rfl)

theorem selfXref_plan {cfg : Cfg} (hf : cfg.file = selfXref) (rs : Env → Resolver) : ∃ ps objs, loadPlan cfg rs LS.init = .ok (([0], objs), { LS.init with ps := ps }) := by
  rw [loadPlan]
  have h1 : findXrefOffsets selfXref PS.init = ([], seek PS.init 52) := by decide +kernel
  rw [liftM_bind (a := []) (p := seek PS.init 52) (by show Res.ok _ = _; rw [hf]; exact congrArg Res.ok h1)]
  have h2 : findRe objRe 0 (selfXref.drop 0) = some (0, 7) := by decide +kernel
  have h3 : findRe objRe 0 (selfXref.drop (0 + 7)) = none := by decide +kernel
  have h4 : readObjectHeader selfXref (seek (seek PS.init 52) ((0 + 0 : Nat) : Int)) = ((1, 0, true), ⟨7, 52, false, []⟩) := by decide +kernel
  obtain ⟨d, ps, hd⟩ := readDictionary_ok selfXref ⟨7, 52, false, []⟩
  have h5 : (match readDictionary selfXref noDec ⟨7, 52, false, []⟩ with
    | .ok (d, _) => (d.get? b!"Type").bind Obj.asName?
    | _ => none) = some b!"XRef" := by decide +kernel
  rw [hd] at h5
  have h6 : d.get? b!"Type" = some (.name b!"XRef") := by
    dsimp only at h5
    cases hg : d.get? b!"Type" with
    | none => rw [hg] at h5; cases h5
    | some o =>
      rw [hg] at h5
      cases o <;> cases h5
      rfl
  have hobj : findObjects cfg rs { LS.init with ps := seek PS.init 52 } =
      .ok ([(1, ⟨0, 0, 1, false, true⟩)], { LS.init with ps := ps }) := by
    rw [findObjects, hf]
    rw [show selfXref.length + 1 = 51 + 1 + 1 from rfl, findObjectsLoop, hf, h2]
    dsimp only
    rw [liftM_bind (a := ()) (p := seek (seek PS.init 52) ((0 + 0 : Nat) : Int)) rfl]
    rw [liftM_bind (a := ((1, 0, true) : Int × Int × Bool)) (p := ⟨7, 52, false, []⟩) (by show Res.ok _ = _; exact congrArg Res.ok h4)]
    dsimp only
    rw [liftM_bind (s := { LS.init with ps := ⟨7, 52, false, []⟩ }) (a := d) (p := ps) (x := fun _ => readDictionary selfXref noDec) hd]
    rw [liftM_bind (s := { LS.init with ps := ps }) (a := some b!"XRef") (p := ps) (Dict.getName_direct _ (o := .name b!"XRef") h6 (by intro n g h; cases h))]
    rw [findObjectsLoop, hf, h3]
    rfl
  rw [bind_of_ok hobj]
  have h7 : (getStartXrefOffset selfXref ps).1 = none := by
    rw [getStart_eq]
    decide +kernel
  refine ⟨(getStartXrefOffset selfXref ps).2, [(1, ⟨0, 0, 1, false, true⟩)], ?_⟩
  rw [liftM_bind (a := none) (p := (getStartXrefOffset selfXref ps).2) (by show Res.ok _ = _; rw [hf, ← h7])]
  rfl

/-- **C61 fails**: `Load` does not return on a file whose cross reference stream gives itself as its filter. -/
theorem C61_false (ext : Ext) (pw : Bytes) : ¬ ∀ (cfg : Cfg) (ord : Order) (fx : Nat), cfg.ext = ext → 18446744073709551616 < fx → ∃ f, load cfg ord f fx pw LS.init ≠ .oof := by
  intro h
  obtain ⟨f, hf⟩ := h ⟨selfXref, ext, some false⟩ default 18446744073709551617 rfl (by decide)
  refine hf ?_
  obtain ⟨ps, objs, hp⟩ := selfXref_plan (cfg := ⟨selfXref, ext, some false⟩) rfl (fun env => resolver env f)
  rw [load, loadF, bind_of_ok hp]
  refine bind_of_oof ?_
  exact bind_of_oof (selfXref_load ext f _ rfl rfl)

end Pdf.Props
