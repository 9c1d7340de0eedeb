import Verif.Lemmas.St
import Verif.Lemmas.Assoc
import Verif.Model.Getters
/-!
The typed getters on entries that are not references.
-/

namespace Pdf
open St

theorem deref_direct {rs : Resolver} {o : Obj} (h : ∀ n g, o ≠ .ref n g) : deref rs o = pure o := by
  cases o with
  | ref n g => exact absurd rfl (h n g)
  | _ => rfl

theorem Dict.getObject_direct {rs : Resolver} {d : Dict} {k : Bytes} {o : Obj} (h : d.get? k = some o) (hr : ∀ n g, o ≠ .ref n g) :
    Dict.getObject rs d k = pure (some o) := by
  rw [Dict.getObject, h]
  dsimp only
  rw [deref_direct hr]; rfl

theorem Dict.getObject_none {rs : Resolver} {d : Dict} {k : Bytes} (h : d.get? k = none) : Dict.getObject rs d k = pure none := by
  rw [Dict.getObject, h]

theorem Dict.getObject_ref {rs : Resolver} {d : Dict} {k : Bytes} {n g : Int} (h : d.get? k = some (.ref n g)) :
    Dict.getObject rs d k = (rs n >>= fun i => pure (some i.value)) := by
  rw [Dict.getObject, h]
  dsimp only
  rw [deref]
  funext s
  rw [bind_run, bind_run]
  cases hx : rs n s with
  | ok p => simp only [bind_run, hx, Res.bind_ok, pure_run]
  | panic w => simp only [bind_run, hx, Res.bind_panic]
  | oof => simp only [bind_run, hx, Res.bind_oof]

section
variable {rs : Resolver} {d : Dict} {k : Bytes} {o : Obj} (s : PS)

theorem Dict.getArray_direct (h : d.get? k = some o) (hr : ∀ n g, o ≠ .ref n g) : Dict.getArray rs d k s = .ok (o.asArr?, s) := by
  rw [Dict.getArray, Dict.getObject_direct h hr]; rfl
theorem Dict.getArray_none (h : d.get? k = none) : Dict.getArray rs d k s = .ok (none, s) := by
  rw [Dict.getArray, Dict.getObject_none h]; rfl
theorem Dict.getBool_direct (h : d.get? k = some o) (hr : ∀ n g, o ≠ .ref n g) : Dict.getBool rs d k s = .ok (o.asBool?, s) := by
  rw [Dict.getBool, Dict.getObject_direct h hr]; rfl
theorem Dict.getBool_none (h : d.get? k = none) : Dict.getBool rs d k s = .ok (none, s) := by
  rw [Dict.getBool, Dict.getObject_none h]; rfl
theorem Dict.getDict_direct (h : d.get? k = some o) (hr : ∀ n g, o ≠ .ref n g) : Dict.getDict rs d k s = .ok (o.asDict?, s) := by
  rw [Dict.getDict, Dict.getObject_direct h hr]; rfl
theorem Dict.getDict_none (h : d.get? k = none) : Dict.getDict rs d k s = .ok (none, s) := by
  rw [Dict.getDict, Dict.getObject_none h]; rfl
theorem Dict.getName_direct (h : d.get? k = some o) (hr : ∀ n g, o ≠ .ref n g) : Dict.getName rs d k s = .ok (o.asName?, s) := by
  rw [Dict.getName, Dict.getObject_direct h hr]; rfl
theorem Dict.getName_none (h : d.get? k = none) : Dict.getName rs d k s = .ok (none, s) := by
  rw [Dict.getName, Dict.getObject_none h]; rfl
theorem Dict.getNumber_direct (h : d.get? k = some o) (hr : ∀ n g, o ≠ .ref n g) : Dict.getNumber rs d k s = .ok (o.asNum?, s) := by
  rw [Dict.getNumber, Dict.getObject_direct h hr]; rfl
theorem Dict.getNumber_none (h : d.get? k = none) : Dict.getNumber rs d k s = .ok (none, s) := by
  rw [Dict.getNumber, Dict.getObject_none h]; rfl
theorem Dict.getInt_direct (h : d.get? k = some o) (hr : ∀ n g, o ≠ .ref n g) : Dict.getInt rs d k s = .ok (o.asNum?.map F64.toInt, s) := by
  rw [Dict.getInt, Dict.getNumber, Dict.getObject_direct h hr]; rfl
theorem Dict.getInt_none (h : d.get? k = none) : Dict.getInt rs d k s = .ok (none, s) := by
  rw [Dict.getInt, Dict.getNumber, Dict.getObject_none h]; rfl
theorem Dict.getString_direct (h : d.get? k = some o) (hr : ∀ n g, o ≠ .ref n g) : Dict.getString rs d k s = .ok (o.asStr?, s) := by
  rw [Dict.getString, Dict.getObject_direct h hr]; rfl
theorem Dict.getString_none (h : d.get? k = none) : Dict.getString rs d k s = .ok (none, s) := by
  rw [Dict.getString, Dict.getObject_none h]; rfl
theorem Dict.getStream_direct (h : d.get? k = some o) (hr : ∀ n g, o ≠ .ref n g) : Dict.getStream rs d k s = .ok (none, s) := by
  rw [Dict.getStream, h]
  cases o with
  | ref n g => exact absurd rfl (hr n g)
  | _ => rfl
theorem Dict.getStream_none (h : d.get? k = none) : Dict.getStream rs d k s = .ok (none, s) := by
  rw [Dict.getStream, h]; rfl
end

section
variable {rs : Resolver} {a : List Obj} {i : Nat} {o : Obj} (s : PS)

theorem Arr.getObject_direct (h : a[i]? = some o) (hr : ∀ n g, o ≠ .ref n g) : Arr.getObject rs a i = pure (some o) := by
  rw [Arr.getObject, if_neg (by omega)]
  rw [Int.toNat_natCast, h]
  dsimp only
  rw [deref_direct hr]; rfl
theorem Arr.getObject_none (h : a[i]? = none) : Arr.getObject rs a i = pure none := by
  rw [Arr.getObject, if_neg (by omega), Int.toNat_natCast, h]
theorem Arr.getName_direct (h : a[i]? = some o) (hr : ∀ n g, o ≠ .ref n g) : Arr.getName rs a i s = .ok (o.asName?, s) := by
  rw [Arr.getName, Arr.getObject_direct h hr]; rfl
theorem Arr.getName_none (h : a[i]? = none) : Arr.getName rs a i s = .ok (none, s) := by
  rw [Arr.getName, Arr.getObject_none h]; rfl
theorem Arr.getDict_direct (h : a[i]? = some o) (hr : ∀ n g, o ≠ .ref n g) : Arr.getDict rs a i s = .ok (o.asDict?, s) := by
  rw [Arr.getDict, Arr.getObject_direct h hr]; rfl
theorem Arr.getDict_none (h : a[i]? = none) : Arr.getDict rs a i s = .ok (none, s) := by
  rw [Arr.getDict, Arr.getObject_none h]; rfl
theorem Arr.getString_direct (h : a[i]? = some o) (hr : ∀ n g, o ≠ .ref n g) : Arr.getString rs a i s = .ok (o.asStr?, s) := by
  rw [Arr.getString, Arr.getObject_direct h hr]; rfl
theorem Arr.getString_none (h : a[i]? = none) : Arr.getString rs a i s = .ok (none, s) := by
  rw [Arr.getString, Arr.getObject_none h]; rfl
theorem Arr.getInt_direct (h : a[i]? = some o) (hr : ∀ n g, o ≠ .ref n g) : Arr.getInt rs a i s = .ok (o.asNum?.map F64.toInt, s) := by
  rw [Arr.getInt, Arr.getNumber, Arr.getObject_direct h hr]; rfl
theorem Arr.getInt_none (h : a[i]? = none) : Arr.getInt rs a i s = .ok (none, s) := by
  rw [Arr.getInt, Arr.getNumber, Arr.getObject_none h]; rfl
end

/-- A computation that always returns. -/
def Total {σ α : Type} (x : St σ α) : Prop := ∀ s, ∃ r, x s = .ok r

theorem Total.pure {σ α : Type} (a : α) : Total (pure a : St σ α) := fun _ => ⟨_, rfl⟩

theorem Total.bind {σ α β : Type} {x : St σ α} {f : α → St σ β} (hx : Total x) (hf : ∀ s a t, x s = .ok (a, t) → Total (f a)) : Total (x >>= f) := by
  intro s
  obtain ⟨⟨a, t⟩, h⟩ := hx s
  rw [bind_of_ok h]
  exact hf s a t h t

theorem Total.bind' {σ α β : Type} {x : St σ α} {f : α → St σ β} (hx : Total x) (hf : ∀ a, Total (f a)) : Total (x >>= f) :=
  hx.bind fun _ a _ _ => hf a

theorem Total.ofRes {σ α : Type} {x : Res α} (h : ∃ a, x = .ok a) : Total (ofRes x : St σ α) := by
  obtain ⟨a, rfl⟩ := h
  exact fun s => ⟨_, rfl⟩

theorem Total.ofFun {σ α : Type} (f : σ → α × σ) : Total (ofFun f) := fun _ => ⟨_, rfl⟩

section
variable {rs : Resolver} (hrs : ∀ n, Total (rs n))
include hrs

theorem deref_total (o : Obj) : Total (deref rs o) := by
  cases o with
  | ref n g => exact (hrs n).bind' fun _ => Total.pure _
  | _ => exact Total.pure _

theorem Dict.getObject_total (d : Dict) (k : Bytes) : Total (Dict.getObject rs d k) := by
  rw [Dict.getObject]
  split
  · exact (deref_total hrs _).bind' fun _ => Total.pure _
  · exact Total.pure _

theorem Arr.getObject_total (a : List Obj) (i : Int) : Total (Arr.getObject rs a i) := by
  rw [Arr.getObject]
  split
  · exact Total.pure _
  · split
    · exact (deref_total hrs _).bind' fun _ => Total.pure _
    · exact Total.pure _

theorem Dict.getArray_total (d : Dict) (k : Bytes) : Total (Dict.getArray rs d k) := (Dict.getObject_total hrs d k).bind' fun _ => Total.pure _
theorem Dict.getBool_total (d : Dict) (k : Bytes) : Total (Dict.getBool rs d k) := (Dict.getObject_total hrs d k).bind' fun _ => Total.pure _
theorem Dict.getDict_total (d : Dict) (k : Bytes) : Total (Dict.getDict rs d k) := (Dict.getObject_total hrs d k).bind' fun _ => Total.pure _
theorem Dict.getName_total (d : Dict) (k : Bytes) : Total (Dict.getName rs d k) := (Dict.getObject_total hrs d k).bind' fun _ => Total.pure _
theorem Dict.getNumber_total (d : Dict) (k : Bytes) : Total (Dict.getNumber rs d k) := (Dict.getObject_total hrs d k).bind' fun _ => Total.pure _
theorem Dict.getInt_total (d : Dict) (k : Bytes) : Total (Dict.getInt rs d k) := (Dict.getNumber_total hrs d k).bind' fun _ => Total.pure _
theorem Dict.getString_total (d : Dict) (k : Bytes) : Total (Dict.getString rs d k) := (Dict.getObject_total hrs d k).bind' fun _ => Total.pure _
theorem Dict.getStream_total (d : Dict) (k : Bytes) : Total (Dict.getStream rs d k) := by
  rw [Dict.getStream]
  split
  · exact (hrs _).bind' fun _ => Total.pure _
  · exact Total.pure _
theorem Arr.getArray_total (a : List Obj) (i : Int) : Total (Arr.getArray rs a i) := (Arr.getObject_total hrs a i).bind' fun _ => Total.pure _
theorem Arr.getDict_total (a : List Obj) (i : Int) : Total (Arr.getDict rs a i) := (Arr.getObject_total hrs a i).bind' fun _ => Total.pure _
theorem Arr.getName_total (a : List Obj) (i : Int) : Total (Arr.getName rs a i) := (Arr.getObject_total hrs a i).bind' fun _ => Total.pure _
theorem Arr.getNumber_total (a : List Obj) (i : Int) : Total (Arr.getNumber rs a i) := (Arr.getObject_total hrs a i).bind' fun _ => Total.pure _
theorem Arr.getInt_total (a : List Obj) (i : Int) : Total (Arr.getInt rs a i) := (Arr.getNumber_total hrs a i).bind' fun _ => Total.pure _
theorem Arr.getString_total (a : List Obj) (i : Int) : Total (Arr.getString rs a i) := (Arr.getObject_total hrs a i).bind' fun _ => Total.pure _
theorem Arr.getStream_total (a : List Obj) (i : Int) : Total (Arr.getStream rs a i) := by
  rw [Arr.getStream]
  split
  · exact Total.pure _
  · split
    · exact (hrs _).bind' fun _ => Total.pure _
    · exact Total.pure _
end

end Pdf
