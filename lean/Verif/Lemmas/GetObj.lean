import Verif.Lemmas.Getters
import Verif.Model.GetObject
/-!
`GetObject` and reference resolution: more fuel changes nothing but non-termination; termination
when auxiliary references go down a rank.
-/

namespace Pdf
open St

/-! ### Fuel -/

theorem keepOffset_le {α : Type} {x y : M α} (h : Le x y) : Le (keepOffset x) (keepOffset y) := by
  intro s
  rcases h s with h | h
  · left; rw [Pdf.keepOffset, h]; rfl
  · right; rw [Pdf.keepOffset, Pdf.keepOffset, h]

section
variable {rs rs' : Resolver} (h : ∀ n, Le (rs n) (rs' n))
include h

theorem deref_le (o : Obj) : Le (deref rs o) (deref rs' o) := by
  cases o with
  | ref n g => exact (h n).bind fun _ => Le.refl _
  | _ => exact Le.refl _

theorem Dict.getObject_le (d : Dict) (k : Bytes) : Le (Dict.getObject rs d k) (Dict.getObject rs' d k) := by
  rw [Dict.getObject, Dict.getObject]
  split
  · exact (deref_le h _).bind fun _ => Le.refl _
  · exact Le.refl _
theorem Arr.getObject_le (a : List Obj) (i : Int) : Le (Arr.getObject rs a i) (Arr.getObject rs' a i) := by
  rw [Arr.getObject, Arr.getObject]
  split
  · exact Le.refl _
  · split
    · exact (deref_le h _).bind fun _ => Le.refl _
    · exact Le.refl _
theorem Dict.getArray_le (d : Dict) (k : Bytes) : Le (Dict.getArray rs d k) (Dict.getArray rs' d k) := (Dict.getObject_le h d k).bind fun _ => Le.refl _
theorem Dict.getBool_le (d : Dict) (k : Bytes) : Le (Dict.getBool rs d k) (Dict.getBool rs' d k) := (Dict.getObject_le h d k).bind fun _ => Le.refl _
theorem Dict.getDict_le (d : Dict) (k : Bytes) : Le (Dict.getDict rs d k) (Dict.getDict rs' d k) := (Dict.getObject_le h d k).bind fun _ => Le.refl _
theorem Dict.getName_le (d : Dict) (k : Bytes) : Le (Dict.getName rs d k) (Dict.getName rs' d k) := (Dict.getObject_le h d k).bind fun _ => Le.refl _
theorem Dict.getNumber_le (d : Dict) (k : Bytes) : Le (Dict.getNumber rs d k) (Dict.getNumber rs' d k) := (Dict.getObject_le h d k).bind fun _ => Le.refl _
theorem Dict.getInt_le (d : Dict) (k : Bytes) : Le (Dict.getInt rs d k) (Dict.getInt rs' d k) := (Dict.getNumber_le h d k).bind fun _ => Le.refl _
theorem Dict.getString_le (d : Dict) (k : Bytes) : Le (Dict.getString rs d k) (Dict.getString rs' d k) := (Dict.getObject_le h d k).bind fun _ => Le.refl _
theorem Dict.getStream_le (d : Dict) (k : Bytes) : Le (Dict.getStream rs d k) (Dict.getStream rs' d k) := by
  rw [Dict.getStream, Dict.getStream]
  split
  · exact (h _).bind fun _ => Le.refl _
  · exact Le.refl _
theorem Arr.getArray_le (a : List Obj) (i : Int) : Le (Arr.getArray rs a i) (Arr.getArray rs' a i) := (Arr.getObject_le h a i).bind fun _ => Le.refl _
theorem Arr.getDict_le (a : List Obj) (i : Int) : Le (Arr.getDict rs a i) (Arr.getDict rs' a i) := (Arr.getObject_le h a i).bind fun _ => Le.refl _
theorem Arr.getName_le (a : List Obj) (i : Int) : Le (Arr.getName rs a i) (Arr.getName rs' a i) := (Arr.getObject_le h a i).bind fun _ => Le.refl _
theorem Arr.getNumber_le (a : List Obj) (i : Int) : Le (Arr.getNumber rs a i) (Arr.getNumber rs' a i) := (Arr.getObject_le h a i).bind fun _ => Le.refl _
theorem Arr.getInt_le (a : List Obj) (i : Int) : Le (Arr.getInt rs a i) (Arr.getInt rs' a i) := (Arr.getNumber_le h a i).bind fun _ => Le.refl _
theorem Arr.getString_le (a : List Obj) (i : Int) : Le (Arr.getString rs a i) (Arr.getString rs' a i) := (Arr.getObject_le h a i).bind fun _ => Le.refl _
theorem Arr.getStream_le (a : List Obj) (i : Int) : Le (Arr.getStream rs a i) (Arr.getStream rs' a i) := by
  rw [Arr.getStream, Arr.getStream]
  split
  · exact Le.refl _
  · split
    · exact (h _).bind fun _ => Le.refl _
    · exact Le.refl _

theorem reversePredictorM_le (data : Bytes) (parms : Dict) : Le (reversePredictorM rs data parms) (reversePredictorM rs' data parms) :=
  (Dict.getInt_le h _ _).bind fun _ => (Dict.getInt_le h _ _).bind fun _ => (Dict.getInt_le h _ _).bind fun _ => (Dict.getInt_le h _ _).bind fun _ => Le.refl _

theorem flateDecode_le (cd : Codecs) (data : Bytes) (parms : Dict) : Le (flateDecode cd rs data parms) (flateDecode cd rs' data parms) := by
  rw [flateDecode, flateDecode]
  split
  · exact Le.refl _
  · split
    · exact Le.refl _
    · exact reversePredictorM_le h _ _

theorem lzwDecode_le (cd : Codecs) (data : Bytes) (parms : Dict) : Le (lzwDecode cd rs data parms) (lzwDecode cd rs' data parms) := by
  refine (Dict.getInt_le h _ _).bind fun _ => ?_
  dsimp only
  split
  · exact Le.refl _
  · exact reversePredictorM_le h _ _

theorem decodeStream_le (cd : Codecs) (filter : Bytes) (data : Option Bytes) (parms : Dict) :
    Le (decodeStream cd rs filter data parms) (decodeStream cd rs' filter data parms) := by
  unfold decodeStream
  split
  · exact Le.refl _
  · exact Le.refl _
  · repeat' first
      | exact Le.refl _
      | exact (flateDecode_le h _ _ _).bind fun _ => Le.refl _
      | exact (lzwDecode_le h _ _ _).bind fun _ => Le.refl _
      | split

theorem decodeLoop_le (cd : Codecs) (filters parms : List Obj) : ∀ (n : Nat) (i : Int) (data : Option Bytes),
    Le (decodeLoop cd rs filters parms n i data) (decodeLoop cd rs' filters parms n i data)
  | 0, _, _ => Le.refl _
  | n + 1, _, _ => (Arr.getName_le h _ _).bind fun _ => (Arr.getDict_le h _ _).bind fun _ => (decodeStream_le h _ _ _ _).bind fun _ =>
      decodeLoop_le cd filters parms n _ _

theorem readStream_le (file : Bytes) (cd : Codecs) (dec : Bytes → Res Bytes) (filters parms : List Obj) :
    Le (readStream file cd rs dec filters parms) (readStream file cd rs' dec filters parms) := by
  refine (Le.refl _).bind fun r => ?_
  cases r with
  | none => exact Le.refl _
  | some raw => exact (Le.refl _).bind fun _ => decodeLoop_le h _ _ _ _ _ _

theorem filterList_le (d : Dict) : Le (filterList rs d) (filterList rs' d) := by
  refine (Dict.getArray_le h _ _).bind fun r => ?_
  cases r with
  | some l => exact Le.refl _
  | none => exact (Dict.getName_le h _ _).bind fun _ => Le.refl _

theorem parmsList_le (d : Dict) : Le (parmsList rs d) (parmsList rs' d) := by
  refine (Dict.getArray_le h _ _).bind fun r => ?_
  cases r with
  | some l => exact Le.refl _
  | none => exact (Dict.getDict_le h _ _).bind fun _ => Le.refl _

theorem streamCrypt_le (sh : SecHandler) (b : Bool) (d : Dict) (filters parms : List Obj) :
    Le (streamCrypt rs sh b d filters parms) (streamCrypt rs' sh b d filters parms) := by
  unfold streamCrypt
  split
  · exact Le.refl _
  · refine (Dict.getName_le h _ _).bind fun t => ?_
    dsimp only
    split
    · exact Le.refl _
    · refine (Arr.getName_le h _ _).bind fun f0 => ?_
      split
      · exact (Arr.getDict_le h _ _).bind fun _ => (Dict.getName_le h _ _).bind fun _ => Le.refl _
      · exact Le.refl _

theorem getStreamF_le (env : Env) (n : Int) (e : XrefEntry) (v : Obj) : Le (getStreamF env rs n e v) (getStreamF env rs' n e v) := by
  refine (Le.refl _).bind fun kw => ?_
  split
  · exact (filterList_le h _).bind fun _ => (parmsList_le h _).bind fun _ => (streamCrypt_le h _ _ _ _ _).bind fun _ => readStream_le h _ _ _ _ _
  · exact Le.refl _

theorem getObjectF_le (env : Env) (n : Int) : Le (getObjectF env rs n) (getObjectF env rs' n) := by
  unfold getObjectF
  split
  · exact Le.refl _
  · split
    · exact (Le.refl _).bind fun _ => (Le.refl _).bind fun _ => (Le.refl _).bind fun _ => (getStreamF_le h _ _ _ _).bind fun _ => Le.refl _
    · exact Le.refl _
end

theorem resolve_le_succ (env : Env) : ∀ (f : Nat) (seen : List Int) (n : Int), Le (resolve env f seen n) (resolve env (f + 1) seen n)
  | 0, _, _ => Le.oof_left _
  | f + 1, seen, n => by
    rw [resolve, resolve]
    split
    · exact Le.refl _
    · refine (getObjectF_le (fun m => keepOffset_le (resolve_le_succ env f [] m)) env n).bind fun o => ?_
      split
      · exact resolve_le_succ env f _ _
      · exact Le.refl _

theorem resolve_le (env : Env) {f f' : Nat} (h : f ≤ f') (seen : List Int) (n : Int) : Le (resolve env f seen n) (resolve env f' seen n) := by
  induction h with
  | refl => exact Le.refl _
  | step h ih => exact ih.trans (resolve_le_succ env _ seen n)

theorem resolver_le (env : Env) {f f' : Nat} (h : f ≤ f') (n : Int) : Le (resolver env f n) (resolver env f' n) := keepOffset_le (resolve_le env h [] n)

theorem getObject_le (env : Env) {f f' : Nat} (h : f ≤ f') (n : Int) : Le (getObject env f n) (getObject env f' n) :=
  getObjectF_le (fun m => resolver_le env h m) env n

end Pdf
