import Verif.Lemmas.GetObj
import Verif.Lemmas.IndObj
import Verif.Spec.Resolve
import Verif.Props.Parser
/-!
Resolving references: fuel, chains, and termination when the references that matter are well founded.
-/

namespace Pdf
open St Spec

theorem Res.bind_ne_oof {α β : Type} {x : Res α} {f : α → Res β} (hx : x ≠ .oof) (hf : ∀ a, f a ≠ .oof) : (x >>= f) ≠ .oof := by
  cases x with
  | ok a => exact hf a
  | panic w => exact fun h => by cases h
  | oof => exact absurd rfl hx

theorem Res.ok_ne_oof {α : Type} {a : α} : (Res.ok a : Res α) ≠ .oof := fun h => by cases h
theorem Res.panic_ne_oof {α : Type} {w : String} : (Res.panic w : Res α) ≠ .oof := fun h => by cases h

macro "noof" : tactic => `(tactic| repeat' first
  | exact Res.ok_ne_oof | exact Res.panic_ne_oof | assumption | refine Res.bind_ne_oof ?_ (fun _ => ?_) | split | dsimp only)

theorem getBitsLoop_ne (d : Bytes) (q : Int) : ∀ k i v, getBitsLoop d q k i v ≠ .oof := by
  intro k
  induction k with
  | zero => intros; rw [getBitsLoop]; noof
  | succ k ih =>
    intro i v
    rw [getBitsLoop]
    repeat' (first | exact ih _ _ | exact Res.panic_ne_oof | split)

theorem getBits_ne (d : Bytes) (p n : Int) : getBits d p n ≠ .oof := by
  rw [getBits]
  exact Res.bind_ne_oof (getBitsLoop_ne _ _ _ _ _) fun _ => Res.ok_ne_oof

theorem setBitsLoop_ne (dv : Nat) (q : Int) : ∀ k i d, setBitsLoop dv q k i d ≠ .oof := by
  intro k
  induction k with
  | zero => intros; rw [setBitsLoop]; noof
  | succ k ih =>
    intro i v
    rw [setBitsLoop]
    repeat' (first | exact ih _ _ | exact Res.panic_ne_oof | exact Res.ok_ne_oof | split)

theorem setBits_ne (d : Bytes) (p n : Int) (v : Nat) : setBits d p n v ≠ .oof := by
  rw [setBits]
  exact Res.bind_ne_oof (getBits_ne _ _ _) fun _ => setBitsLoop_ne _ _ _ _ _

theorem tiffComps_ne (b co rs c : Int) : ∀ k i d, tiffComps b co rs c k i d ≠ .oof := by
  intro k
  induction k with
  | zero => intros; rw [tiffComps]; noof
  | succ k ih =>
    intro i d
    rw [tiffComps]
    split
    · exact Res.ok_ne_oof
    · exact Res.bind_ne_oof (getBits_ne _ _ _) fun _ => Res.bind_ne_oof (getBits_ne _ _ _) fun _ =>
        Res.bind_ne_oof (setBits_ne _ _ _ _) fun _ => ih _ _

theorem tiffCols_ne (b co rs : Int) : ∀ k c d, tiffCols b co rs k c d ≠ .oof := by
  intro k
  induction k with
  | zero => intros; rw [tiffCols]; noof
  | succ k ih =>
    intro c d
    rw [tiffCols]
    refine Res.bind_ne_oof (tiffComps_ne _ _ _ _ _ _ _) fun p => ?_
    obtain ⟨d, b⟩ := p
    dsimp only
    split
    · exact Res.ok_ne_oof
    · exact ih _ _

theorem tiffRows_ne (b co cl w : Int) : ∀ k r d, tiffRows b co cl w k r d ≠ .oof := by
  intro k
  induction k with
  | zero => intros; rw [tiffRows]; noof
  | succ k ih =>
    intro c d
    rw [tiffRows]
    split
    · refine Res.bind_ne_oof (tiffCols_ne _ _ _ _ _ _) fun p => ?_
      obtain ⟨d, b⟩ := p
      dsimp only
      split
      · exact Res.ok_ne_oof
      · exact ih _ _
    · exact Res.ok_ne_oof

theorem idx_ne (d : Bytes) (i : Int) : idx d i ≠ .oof := by
  rw [idx]; noof

theorem pngByte_ne (dec : Bytes) (m w dr dc : Int) (x : Nat) : pngByte dec m w dr dc x ≠ .oof := by
  rw [pngByte]
  repeat' (first | exact idx_ne _ _ | exact Res.ok_ne_oof | refine Res.bind_ne_oof ?_ (fun _ => ?_) | split)

theorem pngCols_ne (m w dr : Int) : ∀ k dc r dec, pngCols m w dr k dc r dec ≠ .oof := by
  intro k
  induction k with
  | zero => intros; rw [pngCols]; noof
  | succ k ih =>
    intro dc r dec
    cases r with
    | nil => rw [pngCols]; exact Res.ok_ne_oof
    | cons x r => rw [pngCols]; exact Res.bind_ne_oof (pngByte_ne _ _ _ _ _ _) fun _ => ih _ _ _

theorem pngRows_ne (p : Int) (w : Nat) : ∀ f r d dec, pngRows p w f r d dec ≠ .oof := by
  intro k
  induction k with
  | zero => intros; rw [pngRows]; noof
  | succ k ih =>
    intro dc r dec
    cases r with
    | nil => rw [pngRows]; exact Res.ok_ne_oof
    | cons x r => rw [pngRows]; exact Res.bind_ne_oof (pngCols_ne _ _ _ _ _ _ _) fun _ => ih _ _ _

theorem reversePredictor_ne (data : Bytes) (p b c k : Int) : reversePredictor data p b c k ≠ .oof := by
  rw [reversePredictor]
  split
  · exact Res.ok_ne_oof
  · generalize wrap64 (wrap64 (b * c) * k) = bits
    dsimp only
    repeat' (first | exact Res.ok_ne_oof | exact tiffRows_ne _ _ _ _ _ _ _ | exact pngRows_ne _ _ _ _ _ _ | split)

theorem decrypt_ne (ext : Ext) (vb : Option Bool) (d : Decryptor) (data : Bytes) : decrypt ext vb d data ≠ .oof := by
  rw [decrypt.eq_def]
  split
  · exact Res.ok_ne_oof
  · exact Res.ok_ne_oof
  · split
    · exact Res.ok_ne_oof
    split
    · refine Res.bind_ne_oof ?_ fun _ => Res.ok_ne_oof
      rw [debug.eq_def]; noof
    · exact Res.ok_ne_oof

/-! ### Chains -/

theorem resolve_succ (env : Env) (f : Nat) (seen : List Int) (n : Int) : resolve env (f + 1) seen n =
    if n ∈ seen then pure (newIndObj n) else (getObject env f n >>= fun o => match o.value with
      | .ref m _ => resolve env f (n :: seen) m
      | _ => pure o) := by
  rw [resolve]; rfl

theorem getObject_mono {env : Env} {f f' : Nat} (h : f ≤ f') {n : Int} {s : PS} {r : IndObj × PS} (e : getObject env f n s = .ok r) :
    getObject env f' n s = .ok r := (getObject_le env h n).ok e

theorem resolve_mono {env : Env} {f f' : Nat} (h : f ≤ f') {v : List Int} {n : Int} {s : PS} {r : IndObj × PS} (e : resolve env f v n s = .ok r) :
    resolve env f' v n s = .ok r := (resolve_le env h v n).ok e

theorem chain_of_resolve {env : Env} : ∀ {f : Nat} {v : List Int} {n : Int} {s : PS} {o : IndObj} {s' : PS},
    resolve env f v n s = .ok (o, s') → Chain env v n s o s' := by
  intro f
  induction f with
  | zero => intro v n s o s' h; cases h
  | succ f ih =>
    intro v n s o s' h
    rw [resolve_succ] at h
    by_cases hn : n ∈ v
    · rw [if_pos hn] at h
      cases h
      exact .seen hn
    · rw [if_neg hn] at h
      obtain ⟨i, s1, h1, h2⟩ := bind_ok h
      cases hv : i.value with
      | ref m g =>
        rw [hv] at h2
        exact .next hn ⟨f, h1⟩ hv (ih h2)
      | _ =>
        rw [hv] at h2
        cases h2
        exact .stop hn ⟨f, h1⟩ (by rw [hv]; intro m g h; cases h)

theorem resolve_of_chain {env : Env} {v : List Int} {n : Int} {s : PS} {o : IndObj} {s' : PS} (h : Chain env v n s o s') :
    ∃ f, resolve env f v n s = .ok (o, s') := by
  induction h with
  | seen h => exact ⟨1, by rw [resolve_succ, if_pos h]; rfl⟩
  | @stop v n s o s' hn hg hv =>
    obtain ⟨f, hf⟩ := hg
    refine ⟨f + 1, ?_⟩
    rw [resolve_succ, if_neg hn, bind_of_ok hf]
    cases hov : o.value with
    | ref m g => exact absurd hov (hv m g)
    | _ => rfl
  | @next v n s o s1 m g r s' hn hg hv _ ih =>
    obtain ⟨f, hf⟩ := hg
    obtain ⟨f', hf'⟩ := ih
    refine ⟨max f f' + 1, ?_⟩
    rw [resolve_succ, if_neg hn, bind_of_ok (getObject_mono (Nat.le_max_left _ _) hf), hv]
    exact resolve_mono (Nat.le_max_right _ _) hf'

/-- Entries of the cross-reference map not yet visited. -/
def fresh (env : Env) (v : List Int) : List Int := (env.xref.map (·.1)).filter fun n => n ∉ v

theorem fresh_lt {env : Env} {v : List Int} {n : Int} (h : n ∈ env.xref.map (·.1)) (hn : n ∉ v) :
    (fresh env (n :: v)).length < (fresh env v).length := by
  have aux : ∀ l : List Int, n ∈ l → (l.filter fun k => k ∉ n :: v).length < (l.filter fun k => k ∉ v).length := by
    intro l
    induction l with
    | nil => intro h; cases h
    | cons a l ih =>
      intro h
      have hle : (l.filter fun k => k ∉ n :: v).length ≤ (l.filter fun k => k ∉ v).length := by
        clear ih h
        induction l with
        | nil => exact Nat.le_refl _
        | cons b l ih =>
          simp only [List.filter_cons]
          by_cases hb : b ∈ v
          · simp [hb]; simpa using ih
          · by_cases hbn : b = n
            · simp [hbn, hn]; simp at ih; omega
            · simp [hb, hbn]; simpa using ih
      by_cases ha : a = n
      · subst ha
        simp [hn]
        simp at hle; omega
      · have := ih (by simpa [Ne.symm ha] using h)
        simp only [List.filter_cons]
        by_cases hav : a ∈ v
        · simp [hav]; simpa using this
        · simp [hav, ha]; simpa using this
  exact aux _ h

theorem getObject_missing {env : Env} {f : Nat} {n : Int} (h : ∀ e, env.xref.get? n = some e → e.typ ≠ 1) :
    getObject env f n = pure (newIndObj n) := by
  rw [getObject, getObjectF]
  cases hx : env.xref.get? n with
  | none => rfl
  | some e => dsimp only; rw [if_neg (h e hx)]

theorem mem_keys_of_gets_ref {env : Env} {n : Int} {s : PS} {o : IndObj} {s' : PS} {m g : Int} (h : Gets env n s o s') (hv : o.value = .ref m g) :
    n ∈ env.xref.map (·.1) := by
  cases hx : env.xref.get? n with
  | none =>
    obtain ⟨f, hf⟩ := h
    rw [getObject_missing (by rw [hx]; intro e h; cases h)] at hf
    cases hf
    cases hv
  | some e =>
    exact List.mem_map.2 ⟨_, Assoc.get?_some_mem hx, rfl⟩

/-! ### Termination -/

/-- Terminates, and every value returned satisfies `P`. -/
def TR {α : Type} (P : α → Prop) (x : M α) : Prop := Term x ∧ Ret P x

theorem TR.pure {α : Type} {P : α → Prop} {a : α} (h : P a) : TR P (pure a : M α) := ⟨Term.pure a, Ret.pure h⟩

theorem TR.bind {α β : Type} {P : α → Prop} {Q : β → Prop} {x : M α} {f : α → M β} (hx : TR P x) (hf : ∀ a, P a → TR Q (f a)) : TR Q (x >>= f) :=
  ⟨Term.bind' hx.1 hx.2 fun a h => (hf a h).1, Ret.bind hx.2 fun a h => (hf a h).2⟩

theorem TR.mono {α : Type} {P Q : α → Prop} {x : M α} (h : TR P x) (hpq : ∀ a, P a → Q a) : TR Q x := ⟨h.1, h.2.mono hpq⟩

/-- Every reference in the object satisfies `Q`. -/
def RefsIn (Q : Int → Prop) (o : Obj) : Prop := ∀ n, Refers o n → Q n

theorem RefsIn.null {Q : Int → Prop} : RefsIn Q .null := fun n h => by cases h

theorem TR.keepOffset {α : Type} {P : α → Prop} {x : M α} (h : TR P x) : TR P (keepOffset x) := by
  constructor
  · intro s hs
    rw [Pdf.keepOffset] at hs
    cases hx : x s with
    | ok p => rw [hx] at hs; cases hs
    | panic w => rw [hx] at hs; cases hs
    | oof => exact h.1 s hx
  · intro s a t hs
    rw [Pdf.keepOffset] at hs
    cases hx : x s with
    | ok p => rw [hx] at hs; cases hs; exact h.2 s p.1 p.2 hx
    | panic w => rw [hx] at hs; cases hs
    | oof => rw [hx] at hs; cases hs

section
variable {rs : Resolver} {Q : Int → Prop} (hrs : ∀ n, Q n → TR (fun i => RefsIn Q i.value) (rs n))
include hrs

theorem deref_tr {o : Obj} (h : RefsIn Q o) : TR (RefsIn Q) (deref rs o) := by
  cases o with
  | ref n g => exact (hrs n (h n .here)).bind fun i hi => TR.pure hi
  | _ => exact TR.pure h

/-- An optional value whose references are all in `Q`. -/
def ORefs (Q : Int → Prop) (o : Option Obj) : Prop := ∀ v, o = some v → RefsIn Q v

theorem Dict.getObject_tr {d : Dict} {k : Bytes} (h : ORefs Q (d.get? k)) : TR (ORefs Q) (Dict.getObject rs d k) := by
  rw [Dict.getObject]
  split
  · exact (deref_tr hrs (h _ (by assumption))).bind fun v hv => TR.pure (by rintro w ⟨⟩; exact hv)
  · exact TR.pure (by intro v h; cases h)

theorem Arr.getObject_tr {a : List Obj} {i : Int} (h : ∀ o ∈ a, RefsIn Q o) : TR (ORefs Q) (Arr.getObject rs a i) := by
  rw [Arr.getObject]
  split
  · exact TR.pure (by intro v h; cases h)
  · split
    · rename_i o ho
      exact (deref_tr hrs (h _ (List.mem_of_getElem? ho))).bind fun v hv => TR.pure (by rintro w ⟨⟩; exact hv)
    · exact TR.pure (by intro v h; cases h)

theorem Dict.getArray_tr {d : Dict} {k : Bytes} (h : ORefs Q (d.get? k)) :
    TR (fun l => ∀ a, l = some a → ∀ o ∈ a, RefsIn Q o) (Dict.getArray rs d k) := by
  rw [Dict.getArray]
  refine (Dict.getObject_tr hrs h).bind fun v hv => TR.pure ?_
  intro a ha o ho n hn
  match v, hv, ha with
  | some (.arr l), hv, ha =>
    cases ha
    exact hv _ rfl n (.arr ho hn)

theorem Dict.getDict_tr {d : Dict} {k : Bytes} (h : ORefs Q (d.get? k)) : TR (fun l => ∀ a, l = some a → RefsIn Q (.dict a)) (Dict.getDict rs d k) := by
  rw [Dict.getDict]
  refine (Dict.getObject_tr hrs h).bind fun v hv => TR.pure ?_
  intro a ha
  match v, hv, ha with
  | some (.dict l), hv, ha =>
    cases ha
    exact hv _ rfl

theorem Arr.getDict_tr {a : List Obj} {i : Int} (h : ∀ o ∈ a, RefsIn Q o) : TR (fun l => ∀ a, l = some a → RefsIn Q (.dict a)) (Arr.getDict rs a i) := by
  rw [Arr.getDict]
  refine (Arr.getObject_tr hrs h).bind fun v hv => TR.pure ?_
  intro a ha
  match v, hv, ha with
  | some (.dict l), hv, ha =>
    cases ha
    exact hv _ rfl

theorem Dict.getName_tr {d : Dict} {k : Bytes} (h : ORefs Q (d.get? k)) : TR (fun _ => True) (Dict.getName rs d k) :=
  (Dict.getObject_tr hrs h).bind fun _ _ => TR.pure trivial

theorem Dict.getInt_tr {d : Dict} {k : Bytes} (h : ORefs Q (d.get? k)) : TR (fun _ => True) (Dict.getInt rs d k) := by
  rw [Dict.getInt, Dict.getNumber]
  exact TR.bind (P := fun _ => True) ((Dict.getObject_tr hrs h).bind fun _ _ => TR.pure trivial) fun _ _ => TR.pure trivial

theorem Arr.getName_tr {a : List Obj} {i : Int} (h : ∀ o ∈ a, RefsIn Q o) : TR (fun _ => True) (Arr.getName rs a i) :=
  (Arr.getObject_tr hrs h).bind fun _ _ => TR.pure trivial

omit hrs in
theorem orefs_of_dict {d : Dict} (h : RefsIn Q (.dict d)) (k : Bytes) : ORefs Q (d.get? k) := fun _ hv n hn => h n (.dict hv hn)

omit hrs in
theorem TR.ofRes {α : Type} {x : Res α} (h : x ≠ .oof) : TR (fun _ => True) (St.ofRes x : M α) := ⟨Term.ofRes h, fun _ _ _ _ => trivial⟩

theorem reversePredictorM_tr {data : Bytes} {parms : Dict} (h : RefsIn Q (.dict parms)) : TR (fun _ => True) (reversePredictorM rs data parms) := by
  have ho := fun k => orefs_of_dict h k
  rw [reversePredictorM]
  exact (Dict.getInt_tr hrs (ho _)).bind fun _ _ => (Dict.getInt_tr hrs (ho _)).bind fun _ _ => (Dict.getInt_tr hrs (ho _)).bind fun _ _ =>
    (Dict.getInt_tr hrs (ho _)).bind fun _ _ => TR.ofRes (reversePredictor_ne _ _ _ _ _)

theorem flateDecode_tr {cd : Codecs} {data : Bytes} {parms : Dict} (h : RefsIn Q (.dict parms)) : TR (fun _ => True) (flateDecode cd rs data parms) := by
  rw [flateDecode]
  split
  · exact TR.pure trivial
  · split
    · exact TR.pure trivial
    · exact reversePredictorM_tr hrs h

theorem lzwDecode_tr {cd : Codecs} {data : Bytes} {parms : Dict} (h : RefsIn Q (.dict parms)) : TR (fun _ => True) (lzwDecode cd rs data parms) := by
  rw [lzwDecode]
  refine (Dict.getInt_tr hrs (orefs_of_dict h _)).bind fun _ _ => ?_
  dsimp only
  split
  · exact TR.pure trivial
  · exact reversePredictorM_tr hrs h

theorem decodeStream_tr {cd : Codecs} {f : Bytes} {data : Option Bytes} {parms : Dict} (h : RefsIn Q (.dict parms)) :
    TR (fun _ => True) (decodeStream cd rs f data parms) := by
  rw [decodeStream.eq_def]
  repeat' (first | exact TR.pure trivial | exact (flateDecode_tr hrs h).bind fun _ _ => TR.pure trivial |
    exact (lzwDecode_tr hrs h).bind fun _ _ => TR.pure trivial | split)

theorem decodeLoop_tr {cd : Codecs} {fs ps : List Obj} (hf : ∀ o ∈ fs, RefsIn Q o) (hp : ∀ o ∈ ps, RefsIn Q o) :
    ∀ n i data, TR (fun _ => True) (decodeLoop cd rs fs ps n i data) := by
  intro n
  induction n with
  | zero => intro i data; rw [decodeLoop]; exact TR.pure trivial
  | succ n ih =>
    intro i data
    rw [decodeLoop]
    refine (Arr.getName_tr hrs hf).bind fun _ _ => (Arr.getDict_tr hrs hp).bind fun p hp => ?_
    refine (decodeStream_tr hrs ?_).bind fun _ _ => ih _ _
    cases p with
    | none => intro n hn; cases hn with | dict h _ => cases h
    | some p => exact hp p rfl

theorem readStream_tr {file : Bytes} {cd : Codecs} {dec : Bytes → Res Bytes} (hdec : ∀ b, dec b ≠ .oof) {fs ps : List Obj}
    (hf : ∀ o ∈ fs, RefsIn Q o) (hp : ∀ o ∈ ps, RefsIn Q o) : TR (fun _ => True) (readStream file cd rs dec fs ps) := by
  rw [readStream]
  refine TR.bind (P := fun _ => True) ⟨Term.ofFun _, fun _ _ _ _ => trivial⟩ fun r _ => ?_
  split
  · exact TR.pure trivial
  · exact (TR.ofRes (hdec _)).bind fun _ _ => decodeLoop_tr hrs hf hp _ _ _

theorem filterList_tr {d : Dict} (h : ORefs Q (d.get? b!"Filter")) : TR (fun l => ∀ o ∈ l, RefsIn Q o) (filterList rs d) := by
  rw [filterList]
  refine (Dict.getArray_tr hrs h).bind fun l hl => ?_
  split
  · exact TR.pure (hl _ rfl)
  · refine (Dict.getName_tr hrs h).bind fun l _ => ?_
    split
    · refine TR.pure ?_
      intro o ho n hn
      rw [List.mem_singleton] at ho
      subst ho; cases hn
    · exact TR.pure (by intro o h; cases h)

theorem parmsList_tr {d : Dict} (h : ORefs Q (d.get? b!"DecodeParms")) : TR (fun l => ∀ o ∈ l, RefsIn Q o) (parmsList rs d) := by
  rw [parmsList]
  refine (Dict.getArray_tr hrs h).bind fun l hl => ?_
  split
  · exact TR.pure (hl _ rfl)
  · refine (Dict.getDict_tr hrs h).bind fun l hl => ?_
    split
    · refine TR.pure ?_
      intro o ho
      rw [List.mem_singleton] at ho
      subst ho; exact hl _ rfl
    · exact TR.pure (by intro o h; cases h)

theorem streamCrypt_tr {sh : SecHandler} {enc : Bool} {d : Dict} {fs ps : List Obj} (h : ORefs Q (d.get? b!"Type"))
    (hf : ∀ o ∈ fs, RefsIn Q o) (hp : ∀ o ∈ ps, RefsIn Q o) :
    TR (fun r => (∀ o ∈ r.2.1, RefsIn Q o) ∧ ∀ o ∈ r.2.2, RefsIn Q o) (streamCrypt rs sh enc d fs ps) := by
  rw [streamCrypt]
  split
  · exact TR.pure ⟨hf, hp⟩
  · refine (Dict.getName_tr hrs h).bind fun _ _ => ?_
    dsimp only
    split
    · exact TR.pure ⟨hf, hp⟩
    · refine (Arr.getName_tr hrs hf).bind fun _ _ => ?_
      split
      · refine (Arr.getDict_tr hrs hp).bind fun p hp' => ?_
        refine (Dict.getName_tr hrs (d := p.getD []) (k := b!"Name") (orefs_of_dict ?_ _)).bind fun _ _ =>
          TR.pure ⟨fun o h => hf o (List.mem_of_mem_drop h), fun o h => hp o (List.mem_of_mem_drop h)⟩
        cases p with
        | none => intro n hn; cases hn with | dict h _ => cases h
        | some p => exact hp' p rfl
      · exact TR.pure ⟨hf, hp⟩

theorem getStreamF_tr {env : Env} {n : Int} {e : XrefEntry} {v : Obj} {s : PS}
    (h : StreamNext (env.file.drop s.pos) → ∀ d : Dict, v = .dict d → ∀ k ∈ [b!"Type", b!"Filter", b!"DecodeParms"], ORefs Q (d.get? k)) :
    getStreamF env rs n e v s ≠ .oof := by
  rw [getStreamF, St.ofFun_bind]
  split
  · rename_i hk
    have hsn : StreamNext (env.file.drop s.pos) := by
      rw [streamNext_iff]; exact (readKeyword_spec env.file s).1.symm.trans hk
    have h' := h hsn
    have h3 : ∀ k ∈ [b!"Type", b!"Filter", b!"DecodeParms"], ORefs Q (Assoc.get? ((Obj.asDict? v).getD []) k) := by
      intro k hk
      cases v with
      | dict d => exact h' d rfl k hk
      | _ => intro v hv; cases hv
    refine ((filterList_tr hrs (h3 _ (by simp))).bind fun fl hfl => (parmsList_tr hrs (h3 _ (by simp))).bind fun pl hpl =>
      (streamCrypt_tr hrs (h3 _ (by simp)) hfl hpl).bind fun r hr => ?_ : TR (fun _ => True) _).1 _
    obtain ⟨cf, fl, pl⟩ := r
    exact readStream_tr hrs (fun b => decrypt_ne _ _ _ _) hr.1 hr.2
  · exact Res.ok_ne_oof

end

theorem readObj_ne {dec : Bytes → Res Bytes} (hdec : ∀ b, dec b ≠ .oof) (file : Bytes) (s : PS) : readObj file dec s ≠ .oof := by
  obtain ⟨h, hne⟩ := Props.readObj_rel hdec file s (Nat.le_refl _)
  intro hs
  rw [hs] at h
  revert h hne
  cases lObj dec (objFuel file) (rest file s) with
  | oof => intro _ h; exact absurd rfl h
  | _ => intro h; exact h.elim

theorem getObjectF_tr {env : Env} {rs : Resolver} {Q : Int → Prop} {P : Obj → Prop} (hrs : ∀ n, Q n → TR (fun i => RefsIn Q i.value) (rs n)) {n : Int}
    (h : ∀ v r, ValueAt env n v r → StreamNext r → ∀ d : Dict, v = .dict d → ∀ k ∈ [b!"Type", b!"Filter", b!"DecodeParms"], ORefs Q (d.get? k))
    (hP : ∀ v r, ValueAt env n v r → P v) (h0 : P .null) :
    TR (fun i => P i.value) (getObjectF env rs n) := by
  cases hx : env.xref.get? n with
  | none => rw [getObjectF, hx]; exact TR.pure h0
  | some e =>
    by_cases ht : e.typ = 1
    · have key : ∀ s, ∃ x : Res ((Obj × RErr) × PS), x = readObj env.file (decrypt env.ext env.verbose (newDecryptor env.ext (if e.isEncrypted then env.sh.stringFilter else .none) n e.generation))
          (readObjectHeader env.file (seek s e.offset)).2 ∧ x ≠ .oof ∧ getObjectF env rs n s = x >>= fun p => (getStreamF env rs n e p.1.1 >>= fun st => pure ⟨n, e.generation, p.1.1, st⟩ : M IndObj) p.2 := by
        intro s
        refine ⟨_, rfl, readObj_ne (fun b => decrypt_ne _ _ _ _) _ _, ?_⟩
        rw [getObjectF, hx]
        dsimp only
        rw [if_pos ht]
        rfl
      constructor
      · intro s hs
        obtain ⟨x, hxe, hne, hg⟩ := key s
        rw [hs] at hg
        cases x with
        | oof => exact hne rfl
        | panic w => cases hg
        | ok p =>
          obtain ⟨⟨v, err⟩, s1⟩ := p
          have hva := ValueAt.mk hx ht hxe.symm
          rw [Res.bind_ok] at hg
          have := getStreamF_tr hrs (n := n) (e := e) (v := v) (s := s1) (h v _ hva)
          dsimp only at hg
          cases hst : getStreamF env rs n e v s1 with
          | oof => exact this hst
          | ok p => rw [bind_of_ok (a := p.1) (t := p.2) hst] at hg; cases hg
          | panic w => rw [bind_of_panic hst] at hg; cases hg
      · intro s a t hs
        obtain ⟨x, hxe, hne, hg⟩ := key s
        rw [hs] at hg
        cases x with
        | oof => exact absurd rfl hne
        | panic w => cases hg
        | ok p =>
          obtain ⟨⟨v, err⟩, s1⟩ := p
          have hva := ValueAt.mk hx ht hxe.symm
          rw [Res.bind_ok] at hg
          obtain ⟨st, u, h1, h2⟩ := bind_ok hg.symm
          cases h2
          exact hP v _ hva
    · rw [getObjectF, hx]
      dsimp only
      rw [if_neg ht]
      exact TR.pure h0

end Pdf
