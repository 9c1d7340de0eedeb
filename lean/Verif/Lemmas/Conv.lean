import Verif.Lemmas.GetObj
import Verif.Model.Xref
/-!
Families of computations indexed by the depth of reference resolution that settle on every state.
-/

namespace Pdf
namespace St

variable {σ α β : Type}

/-- `x f` does what `x g` does for `f ≤ g` unless it runs out of fuel, and on every state some `x f`
does not run out of fuel. -/
def Conv (x : Nat → St σ α) : Prop := (∀ f g, f ≤ g → Le (x f) (x g)) ∧ ∀ s, ∃ f, x f s ≠ .oof

theorem Conv.const {y : St σ α} (h : Term y) : Conv fun _ => y := ⟨fun _ _ _ => Le.refl _, fun s => ⟨0, h s⟩⟩

theorem Conv.pure (a : α) : Conv fun _ => (pure a : St σ α) := Conv.const (Term.pure a)

theorem Conv.bind' {P : α → Prop} {x : Nat → St σ α} {k : Nat → α → St σ β} (hx : Conv x) (hp : ∀ f, Ret P (x f))
    (hk : ∀ a, P a → Conv fun f => k f a) : Conv fun f => x f >>= k f := by
  refine ⟨fun f g hfg s => ?_, fun s => ?_⟩
  · show (x f >>= k f) s = .oof ∨ (x f >>= k f) s = (x g >>= k g) s
    rcases hx.1 f g hfg s with h | h
    · exact .inl (bind_of_oof h)
    · cases hr : x f s with
      | ok p =>
        rw [bind_of_ok (a := p.1) (t := p.2) hr, bind_of_ok (a := p.1) (t := p.2) (h ▸ hr)]
        exact (hk p.1 (hp f _ _ _ hr)).1 f g hfg _
      | panic w => exact .inr (by rw [bind_of_panic hr, bind_of_panic (h ▸ hr)])
      | oof => exact .inl (bind_of_oof hr)
  obtain ⟨f, hf⟩ := hx.2 s
  cases hr : x f s with
  | oof => exact absurd hr hf
  | panic w => exact ⟨f, by show (x f >>= k f) s ≠ _; rw [bind_of_panic hr]; intro h; cases h⟩
  | ok p =>
    have hc := hk p.1 (hp f _ _ _ hr)
    obtain ⟨g, hg⟩ := hc.2 p.2
    refine ⟨max f g, ?_⟩
    show (x _ >>= k _) s ≠ _
    rw [bind_of_ok (a := p.1) (t := p.2) ((hx.1 f _ (Nat.le_max_left f g)).ok hr)]
    intro h
    have hm : Le (k g p.1) (k (max f g) p.1) := hc.1 g _ (Nat.le_max_right f g)
    rw [hm.ne_oof hg] at h
    exact hg h

theorem Conv.bind {x : Nat → St σ α} {k : Nat → α → St σ β} (hx : Conv x) (hk : ∀ a, Conv fun f => k f a) : Conv fun f => x f >>= k f :=
  Conv.bind' (P := fun _ => True) hx (fun _ _ _ _ _ => trivial) fun a _ => hk a

theorem Conv.ite {c : Prop} [Decidable c] {x y : Nat → St σ α} (hx : Conv x) (hy : Conv y) : Conv fun f => if c then x f else y f := by
  split
  · exact hx
  · exact hy

end St

open St

theorem liftM_conv {α : Type} {x : Nat → LS → M α} (h : ∀ s, Conv fun f => x f s) : Conv fun f => liftM (x f) := by
  refine ⟨fun f g hfg s => ?_, fun s => ?_⟩
  · rcases (h s).1 f g hfg s.ps with h | h
    · left
      have h : x f s s.ps = .oof := h
      show (x f s s.ps >>= fun p => Res.ok (p.1, { s with ps := p.2 })) = _
      rw [h]; rfl
    · right
      have h : x f s s.ps = x g s s.ps := h
      show (x f s s.ps >>= fun p => Res.ok (p.1, { s with ps := p.2 })) = (x g s s.ps >>= fun p => Res.ok (p.1, { s with ps := p.2 }))
      rw [h]
  · obtain ⟨f, hf⟩ := (h s).2 s.ps
    refine ⟨f, ?_⟩
    show (x f s s.ps >>= fun p => Res.ok (p.1, { s with ps := p.2 })) ≠ _
    cases hr : x f s s.ps with
    | oof => exact absurd hr hf
    | panic w => intro h; cases h
    | ok p => intro h; cases h

section
variable {rs : Nat → Resolver} (h : ∀ n, Conv fun f => rs f n)
include h

theorem deref_conv (o : Obj) : Conv fun f => deref (rs f) o := by
  cases o with
  | ref n g => exact (h n).bind fun _ => Conv.pure _
  | _ => exact Conv.pure _

theorem Dict.getObject_conv (d : Dict) (k : Bytes) : Conv fun f => Dict.getObject (rs f) d k := by
  simp only [Dict.getObject]
  cases d.get? k with
  | none => exact Conv.pure _
  | some o => exact (deref_conv h o).bind fun _ => Conv.pure _

theorem Arr.getObject_conv (l : List Obj) (i : Int) : Conv fun f => Arr.getObject (rs f) l i := by
  simp only [Arr.getObject]
  refine Conv.ite (Conv.pure _) ?_
  cases l[i.toNat]? with
  | none => exact Conv.pure _
  | some o => exact (deref_conv h o).bind fun _ => Conv.pure _

theorem Dict.getArray_conv (d : Dict) (k : Bytes) : Conv fun f => Dict.getArray (rs f) d k := (Dict.getObject_conv h d k).bind fun _ => Conv.pure _
theorem Dict.getBool_conv (d : Dict) (k : Bytes) : Conv fun f => Dict.getBool (rs f) d k := (Dict.getObject_conv h d k).bind fun _ => Conv.pure _
theorem Dict.getDict_conv (d : Dict) (k : Bytes) : Conv fun f => Dict.getDict (rs f) d k := (Dict.getObject_conv h d k).bind fun _ => Conv.pure _
theorem Dict.getName_conv (d : Dict) (k : Bytes) : Conv fun f => Dict.getName (rs f) d k := (Dict.getObject_conv h d k).bind fun _ => Conv.pure _
theorem Dict.getString_conv (d : Dict) (k : Bytes) : Conv fun f => Dict.getString (rs f) d k := (Dict.getObject_conv h d k).bind fun _ => Conv.pure _
theorem Dict.getNumber_conv (d : Dict) (k : Bytes) : Conv fun f => Dict.getNumber (rs f) d k := (Dict.getObject_conv h d k).bind fun _ => Conv.pure _
theorem Dict.getInt_conv (d : Dict) (k : Bytes) : Conv fun f => Dict.getInt (rs f) d k := (Dict.getNumber_conv h d k).bind fun _ => Conv.pure _
theorem Arr.getArray_conv (l : List Obj) (i : Int) : Conv fun f => Arr.getArray (rs f) l i := (Arr.getObject_conv h l i).bind fun _ => Conv.pure _
theorem Arr.getString_conv (l : List Obj) (i : Int) : Conv fun f => Arr.getString (rs f) l i := (Arr.getObject_conv h l i).bind fun _ => Conv.pure _
theorem Arr.getNumber_conv (l : List Obj) (i : Int) : Conv fun f => Arr.getNumber (rs f) l i := (Arr.getObject_conv h l i).bind fun _ => Conv.pure _
theorem Arr.getInt_conv (l : List Obj) (i : Int) : Conv fun f => Arr.getInt (rs f) l i := (Arr.getNumber_conv h l i).bind fun _ => Conv.pure _

theorem lengthEntry_conv (d : Dict) (v : Int) : Conv fun f => lengthEntry (rs f) d v := by
  simp only [lengthEntry]
  exact Conv.ite (Conv.pure _) (Dict.getInt_conv h _ _)

theorem namedFilter_conv (d : Dict) (sh : SecHandler) (k : Bytes) (c : CryptFilter) : Conv fun f => namedFilter (rs f) d sh k c := by
  simp only [namedFilter]
  refine (Dict.getName_conv h _ _).bind fun o => ?_
  cases o <;> exact Conv.pure _

end

theorem sliceTo_ne (d : Bytes) (n : Int) : sliceTo d n ≠ .oof := by
  unfold sliceTo
  repeat' first | split | (intro h; cases h)

theorem rehash_ne (ext : Ext) (n : Int) : ∀ k d, rehash ext n k d ≠ .oof := by
  intro k
  induction k with
  | zero => intro d h; cases h
  | succ k ih =>
    intro d
    rw [rehash]
    cases hs : sliceTo (ext.md5 d) n with
    | oof => exact absurd hs (sliceTo_ne _ _)
    | panic w => intro h; cases h
    | ok v => exact ih _

theorem computeKey_ne (ext : Ext) (sh : SecHandler) (pw : Bytes) (n : Int) : computeKey ext sh pw n ≠ .oof := by
  rw [computeKey]
  generalize ext.md5 _ = m
  cases hs : sliceTo m n with
  | oof => exact absurd hs (sliceTo_ne _ _)
  | panic w => intro h; cases h
  | ok v =>
    rw [Res.bind_ok]
    split
    · exact rehash_ne _ _ _ _
    · intro h; cases h

theorem verifyKey_ne (ext : Ext) (sh : SecHandler) : verifyKey ext sh ≠ .oof := by
  rw [verifyKey]
  split
  · intro h; cases h
  · split
    · rw [firstSixteen]
      split
      · intro h; cases h
      · intro h; cases h
    · intro h; cases h

theorem loadCryptFilters_conv {rs : Nat → SecHandler → Resolver} (h : ∀ sh n, Conv fun f => rs f sh n) (ext : Ext) (pw : Bytes) :
    ∀ l sh, Conv fun f => loadCryptFilters ext (rs f) pw l sh := by
  intro l
  induction l with
  | nil => intro sh; exact Conv.pure _
  | cons p t ih =>
    intro sh
    obtain ⟨k, e⟩ := p
    refine Conv.bind (k := fun f a => loadCryptFilters ext (rs f) pw t a) ?_ fun a => ih a
    cases e with
    | dict d =>
      simp only [loadCryptFilter]
      refine (Dict.getName_conv (h _) _ _).bind fun o => ?_
      cases o with
      | none => exact Conv.pure _
      | some m =>
        refine (Dict.getInt_conv (h _) _ _).bind fun o => ?_
        refine Conv.ite (Conv.pure _) (Conv.ite ?_ (Conv.ite ?_ (Conv.pure _)))
        · exact (Conv.const (Term.ofRes (computeKey_ne _ _ _ _))).bind fun _ => Conv.pure _
        · exact (Conv.const (Term.ofRes (computeKey_ne _ _ _ _))).bind fun _ => Conv.pure _
    | _ => exact Conv.pure _

section
variable {rs : Nat → SecHandler → Resolver} (h : ∀ sh n, Conv fun f => rs f sh n)
include h

theorem setFilters_conv (ext : Ext) (ord : Order) (pw : Bytes) (d : Dict) (sh : SecHandler) : Conv fun f => setFilters ext (rs f) ord pw d sh := by
  simp only [setFilters]
  refine Conv.ite ?_ (Conv.pure _)
  refine (Dict.getDict_conv (h _) _ _).bind fun _ => ?_
  refine (loadCryptFilters_conv h _ _ _ _).bind fun sh => ?_
  refine (namedFilter_conv (h _) _ _ _ _).bind fun _ => ?_
  refine (namedFilter_conv (h _) _ _ _ _).bind fun _ => ?_
  exact (namedFilter_conv (h _) _ _ _ _).bind fun _ => Conv.pure _

theorem secInit_conv (ext : Ext) (ord : Order) (pw : Bytes) (d : Dict) (sh : SecHandler) : Conv fun f => secInit ext (rs f) ord pw d sh := by
  simp only [secInit]
  refine (Dict.getDict_conv (h _) _ _).bind fun o => ?_
  cases o with | none => exact Conv.pure _ | some enc => ?_
  refine (Dict.getName_conv (h _) _ _).bind fun o => ?_
  refine Conv.ite (Conv.pure _) ?_
  refine (Dict.getInt_conv (h _) _ _).bind fun o => ?_
  refine Conv.ite (Conv.pure _) ?_
  refine (Dict.getInt_conv (h _) _ _).bind fun o => ?_
  refine Conv.ite (Conv.pure _) ?_
  refine (lengthEntry_conv (h _) _ _).bind fun o => ?_
  refine (Dict.getString_conv (h _) _ _).bind fun o => ?_
  cases o with | none => exact Conv.pure _ | some o => ?_
  refine (Dict.getString_conv (h _) _ _).bind fun o => ?_
  cases o with | none => exact Conv.pure _ | some o => ?_
  refine (Dict.getInt_conv (h _) _ _).bind fun o => ?_
  cases o with | none => exact Conv.pure _ | some o => ?_
  refine (Dict.getBool_conv (h _) _ _).bind fun o => ?_
  refine (Dict.getArray_conv (h _) _ _).bind fun o => ?_
  cases o with | none => exact Conv.pure _ | some o => ?_
  refine (Arr.getString_conv (h _) _ _).bind fun o => ?_
  cases o with | none => exact Conv.pure _ | some o => ?_
  refine (Conv.const (Term.ofRes (computeKey_ne _ _ _ _))).bind fun _ => ?_
  refine (Conv.const (Term.ofRes (verifyKey_ne _ _))).bind fun _ => ?_
  refine Conv.ite (Conv.pure _) ?_
  exact (setFilters_conv h _ _ _ _ _).bind fun _ => Conv.pure _

end

end Pdf
