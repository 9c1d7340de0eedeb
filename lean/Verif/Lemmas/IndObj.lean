import Verif.Spec.IndObj
import Verif.Lemmas.GetObj
import Verif.Lemmas.Inv
import Verif.Lemmas.Stream
import Verif.Lemmas.MapStr
import Verif.Lemmas.Parser
/-!
Reading an indirect object from its text.
-/

namespace Pdf
open Spec St

theorem lKeyword_word {w k r : Bytes} (hw : Blank w) (hne : k ≠ []) (hk : ∀ c ∈ k, Spec.IsRegular c) (hr : Stops r) :
    lKeyword (w ++ (k ++ r)) = ⟨k, w.length + k.length, []⟩ := by
  have hz : skipWs false (k ++ r) = 0 := by
    cases k with
    | nil => exact absurd rfl hne
    | cons b k =>
      have h := hk b (by simp)
      exact skipWs_zero h.1 (fun hb => h.2 (by rw [hb]; decide))
  rw [lKeyword, drop_blank hw, skipWs_blank hw, hz, List.drop_zero, kwGo_regular hk hr]
  rfl

theorem kwGo_prefix : ∀ l : Bytes, ∃ r, l = kwGo l ++ r ∧ Stops r := by
  intro l
  induction l with
  | nil => exact ⟨[], rfl, by intro b t h; cases h⟩
  | cons b t ih =>
    rw [kwGo]
    split
    · rename_i h
      refine ⟨b :: t, rfl, ?_⟩
      apply kwGo_nil
      rw [kwGo, if_pos h]
    · obtain ⟨r, h1, h2⟩ := ih
      exact ⟨r, by rw [List.cons_append, ← h1], h2⟩

theorem streamNext_iff (r : Bytes) : StreamNext r ↔ (lKeyword r).val = b!"stream" := by
  constructor
  · rintro ⟨w, r', rfl, hw, hs⟩
    rw [lKeyword_word hw (by decide) (by decide) hs]
  · intro h
    simp only [lKeyword] at h
    have hne : r.drop (skipWs false r) ≠ [] := by intro h0; rw [h0] at h; cases h
    have hb := (blank_take r false hne).1 rfl
    obtain ⟨r', h1, h2⟩ := kwGo_prefix (r.drop (skipWs false r))
    rw [h] at h1
    refine ⟨r.take (skipWs false r), r', ?_, hb, h2⟩
    conv => lhs; rw [← List.take_append_drop (skipWs false r) r, h1]

/-- `ReadObjectHeader` on a header. -/
theorem readObjectHeader_text {ds gs : List Nat} {h : Bytes} (hh : HeaderText ds gs h) {r : Bytes} (hr : Stops r) (file : Bytes) (s : PS)
    (hin : file.drop s.pos = h ++ r) :
    ∃ n g, IsInt64Of (decVal ds) n ∧ IsInt64Of (decVal gs) g ∧ (readObjectHeader file s).1 = (n, g, true) ∧
      Step s (readObjectHeader file s).2 h.length [] := by
  cases hh with
  | @mk w _ w1 _ w2 hw hd hne hw1 hw1ne hg hgne hw2 =>
    have hnd2 : NoDigit (w2 ++ (b!"obj" ++ r)) := blank_noDigit hw2 (by rintro b t ⟨⟩; decide)
    have hnd1 : NoDigit (w1 ++ (gs.map decDigit ++ (w2 ++ (b!"obj" ++ r)))) := by
      cases hw1 with
      | nil => exact absurd rfl hw1ne
      | ws hb _ =>
        rintro b t h
        obtain ⟨rfl, -⟩ := List.cons.inj h
        intro hc
        rcases hb with rfl | rfl | rfl | rfl | rfl | rfl <;> revert hc <;> decide
      | comment _ _ _ =>
        rintro b t h
        obtain ⟨rfl, -⟩ := List.cons.inj h
        decide
    have hl : rest file s = w ++ (ds.map decDigit ++ (w1 ++ (gs.map decDigit ++ (w2 ++ (b!"obj" ++ r))))) := by
      rw [rest, hin]; simp only [List.append_assoc]
    obtain ⟨n, hn, h1⟩ := lInt_digits hw ds hd hne _ hnd1
    rw [← hl] at h1
    obtain ⟨s1, e1, st1⟩ := readInt_some h1
    have hl1 : rest file s1 = w1 ++ (gs.map decDigit ++ (w2 ++ (b!"obj" ++ r))) := by
      rw [rest_eq st1.pos, hl, ← List.append_assoc, List.drop_left' (by simp)]
    obtain ⟨g, hgn, h2⟩ := lInt_digits hw1 gs hg hgne _ hnd2
    rw [← hl1] at h2
    obtain ⟨s2, e2, st2⟩ := readInt_some h2
    have hl2 : rest file s2 = w2 ++ (b!"obj" ++ r) := by
      rw [rest_eq st2.pos, hl1, ← List.append_assoc, List.drop_left' (by simp)]
    obtain ⟨k1, k2⟩ := readKeyword_spec file s2
    rw [hl2, lKeyword_word hw2 (by decide) (by decide) hr] at k1 k2
    refine ⟨n, g, hn, hgn, ?_, ?_⟩
    · rw [readObjectHeader, e1]; dsimp only
      rw [e2]; dsimp only
      rw [k1]; rfl
    · rw [readObjectHeader, e1]; dsimp only
      rw [e2]; dsimp only
      exact ((st1.trans st2).trans k2).cast (by simp; omega) rfl

/-- `ReadObject` with a decryption that never fails. -/
theorem readObj_mapStr {dec : Bytes → Res Bytes} {g : Bytes → Bytes} (hd : ∀ b, dec b = .ok (g b)) {o : Obj} {t r w : Bytes} {e : List Err}
    (h : ObjAt o t r e) (hw : Blank w) (file : Bytes) (s : PS) (hin : file.drop s.pos = w ++ (t ++ r)) :
    ∃ s', readObj file dec s = .ok ((mapStr g o, .nil), s') ∧ s'.pos = s.pos + w.length + t.length ∧ s'.log = s.log ++ e := by
  obtain ⟨f, hf⟩ := objAt_read h
  have hb := lObj_blank_ok hw hf
  have hd' := (lObj_mapStr hd f).1 (w ++ (t ++ r))
  rw [hb] at hd'
  obtain ⟨s', h1, h2, h3⟩ := readObj_of_lObj (fun b => by rw [hd b]; exact fun h => by cases h) hin hd'
  exact ⟨s', h1, by rw [h2]; simp only; omega, h3⟩

theorem getObjectF_run {env : Env} {rs : Resolver} {n : Int} {e : XrefEntry} (hx : env.xref.get? n = some e) (ht : e.typ = 1) {s s1 : PS} {v : Obj} {err : RErr}
    (hr : readObj env.file (decrypt env.ext env.verbose (newDecryptor env.ext (if e.isEncrypted then env.sh.stringFilter else .none) n e.generation))
      (readObjectHeader env.file (seek s e.offset)).2 = .ok ((v, err), s1)) :
    getObjectF env rs n s = (getStreamF env rs n e v >>= fun st => pure ⟨n, e.generation, v, st⟩ : M IndObj) s1 := by
  rw [getObjectF, hx]
  dsimp only
  rw [if_pos ht]
  show (readObj env.file _ (readObjectHeader env.file (seek s e.offset)).2 >>=
    fun p => (getStreamF env rs n e p.1.1 >>= fun st => pure ⟨n, e.generation, p.1.1, st⟩ : M IndObj) p.2) = _
  rw [hr, Res.bind_ok]

/-! ### Filters -/

theorem decodeLoop_names (cd : Codecs) (rs : Resolver) (F P : List Obj) : ∀ (fs : List Bytes) (ps : List Dict) (os : List Obj) (pre pre' : List Obj),
    F = pre ++ fs.map .name → P = pre' ++ os → (pre.length = pre'.length ∨ os = []) → P.length ≤ pre.length ∨ pre.length = pre'.length → ParmList os ps →
    ∀ data, decodeLoop cd rs F P fs.length pre.length data = decodeAll cd rs fs ps data := by
  intro fs
  induction fs with
  | nil => intros; rfl
  | cons f fs ih =>
    intro ps os pre pre' hF hP hl hl2 hp data
    have hget : F[pre.length]? = some (.name f) := by rw [hF, List.getElem?_append_right (Nat.le_refl _)]; simp
    funext s
    rw [List.length_cons, decodeLoop, bind_of_ok (Arr.getName_direct s hget (by intro n g h; cases h))]
    have hF' : F = (pre ++ [.name f]) ++ fs.map .name := by rw [hF]; simp
    have hlen : (pre.length : Int) + 1 = ((pre ++ [Obj.name f]).length : Nat) := by simp
    cases hp with
    | nil =>
      have hnone : P[pre.length]? = none := by
        rw [List.getElem?_eq_none_iff]
        rw [hP, List.append_nil] at hl2 ⊢
        omega
      rw [bind_of_ok (Arr.getDict_none s hnone)]
      rw [decodeAll, hlen]
      have := ih [] [] (pre ++ [.name f]) pre' hF' hP (.inr rfl) (by
        rw [List.getElem?_eq_none_iff] at hnone
        left; simp; omega) .nil
      rw [bind_run, bind_run]
      simp only [this]
      rfl
    | @cons o p os ps h0 hp =>
      have hll : pre.length = pre'.length := by
        rcases hl with h | h
        · exact h
        · cases h
      have hgp : P[pre.length]? = some o := by rw [hP, hll, List.getElem?_append_right (Nat.le_refl _)]; simp
      have hstep : Arr.getDict rs P (pre.length : Int) s = .ok (if p = [] ∧ o ≠ .dict p then none else some p, s) := by
        cases h0 with
        | dict => rw [Arr.getDict_direct s hgp (by intro n g h; cases h)]; simp [Obj.asDict?]
        | null => rw [Arr.getDict_direct s hgp (by intro n g h; cases h)]; simp [Obj.asDict?, Obj.null]
      rw [bind_of_ok hstep, decodeAll, hlen]
      have hgd : (if p = [] ∧ o ≠ .dict p then none else some p : Option Dict).getD [] = p := by
        split
        · rename_i h; rw [h.1]; rfl
        · rfl
      rw [hgd]
      have := ih ps os (pre ++ [.name f]) (pre' ++ [o]) hF' (by rw [hP]; simp) (.inl (by simp [hll])) (.inr (by simp [hll])) hp
      rw [bind_run, bind_run]
      simp only [this]
      rfl

theorem filterList_filters (rs : Resolver) {d : Dict} {fs : List Bytes} (h : Filters d fs) (s : PS) :
    filterList rs d s = .ok (fs.map .name, s) := by
  rw [filterList]
  cases h with
  | none h =>
    rw [bind_of_ok (Dict.getArray_none s h)]
    dsimp only
    rw [bind_of_ok (Dict.getName_none s h)]; rfl
  | one h =>
    rw [bind_of_ok (Dict.getArray_direct s h (by intro n g h; cases h))]
    show (Dict.getName rs d b!"Filter" >>= _ : M (List Obj)) s = _
    rw [bind_of_ok (Dict.getName_direct s h (by intro n g h; cases h))]; rfl
  | many h =>
    rw [bind_of_ok (Dict.getArray_direct s h (by intro n g h; cases h))]; rfl

theorem parmsList_parms (rs : Resolver) {d : Dict} {ps : List Dict} (h : Parms d ps) (s : PS) :
    ∃ os, parmsList rs d s = .ok (os, s) ∧ ParmList os ps := by
  rw [parmsList]
  cases h with
  | none h =>
    refine ⟨[], ?_, .nil⟩
    rw [bind_of_ok (Dict.getArray_none s h)]
    dsimp only
    rw [bind_of_ok (Dict.getDict_none s h)]; rfl
  | @one p h =>
    refine ⟨[.dict p], ?_, .cons .dict .nil⟩
    rw [bind_of_ok (Dict.getArray_direct s h (by intro n g h; cases h))]
    show (Dict.getDict rs d b!"DecodeParms" >>= _ : M (List Obj)) s = _
    rw [bind_of_ok (Dict.getDict_direct s h (by intro n g h; cases h))]; rfl
  | @many os _ h hp =>
    refine ⟨os, ?_, hp⟩
    rw [bind_of_ok (Dict.getArray_direct s h (by intro n g h; cases h))]; rfl

end Pdf
