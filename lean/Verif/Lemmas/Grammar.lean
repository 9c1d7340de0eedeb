import Verif.Lemmas.Obj
import Verif.Lemmas.Number
/-!
`lObj` reads the texts of `Spec.Grammar`, complete or cut off.
-/

namespace Pdf
open Spec

theorem lDict_end {dec : Bytes → Res Bytes} {w r : Bytes} (hw : Blank w) (d : Dict) :
    lDict dec 2 (w ++ [62, 62] ++ r) d = .ok ⟨d, w.length + 2, []⟩ := by
  rw [lDict]
  have := lObj_blank_ok hw (lObj_endDict dec 0 r)
  rw [List.append_assoc]
  exact lthen_ok (q := ⟨d, 0, []⟩) this rfl

theorem lDict_entry {dec : Bytes → Res Bytes} {f1 f2 : Nat} {w k kt w' l : Bytes} {o : Obj} {d d' : Dict} {n m : Nat} {e e' e'' : List Err}
    (hw : Blank w) (hk : NameText k kt e) (hw' : Blank w') (hs : Stops (w' ++ l)) (err : RErr)
    (h1 : lObj dec f1 l = .ok ⟨(o, err), n, e'⟩) (he : err ≠ .readError ∧ err ≠ .endOfDictionary)
    (h2 : lDict dec f2 (l.drop n) (d.set k o) = .ok ⟨d', m, e''⟩) :
    lDict dec (max (max f1 f2) 1 + 1) (w ++ (47 :: kt ++ (w' ++ l))) d =
      .ok ⟨d', w.length + (1 + kt.length) + (w'.length + n) + m, e ++ (e' ++ e'')⟩ := by
  have hf1 : f1 ≤ max (max f1 f2) 1 := by omega
  have hf2 : f2 ≤ max (max f1 f2) 1 := by omega
  obtain ⟨F, hF⟩ : ∃ F, max (max f1 f2) 1 = F + 1 := ⟨max (max f1 f2) 1 - 1, by omega⟩
  rw [hF] at hf1 hf2 ⊢
  have hname : lObj dec (F + 1) (47 :: kt ++ (w' ++ l)) = .ok ⟨(.name k, .nil), 1 + kt.length, e⟩ := by
    rw [List.cons_append, lObj_name, nameGo_text hk _ hs]
  have hname' := lObj_blank_ok hw hname
  have h1' : lObj dec (F + 1) (w' ++ l) = _ :=
    lObj_blank_ok hw' ((lObj_fuel dec hf1 (by rw [h1]; simp)).trans h1)
  have h2' : lDict dec (F + 1) (l.drop n) (d.set k o) = _ := (lDict_fuel dec hf2 (by rw [h2]; simp)).trans h2
  rw [lDict]
  have hd1 : List.drop (w.length + (1 + kt.length)) (w ++ (47 :: kt ++ (w' ++ l))) = w' ++ l := by
    rw [← List.append_assoc, List.drop_left' (by simp; omega)]
  have hd2 : List.drop (w'.length + n) (w' ++ l) = l.drop n := by
    rw [← List.drop_drop, List.drop_left]
  refine (lthen_ok (q := ⟨d', w'.length + n + m, e' ++ e''⟩) hname' ?_).trans (by simp [Nat.add_assoc])
  simp only
  rw [if_neg (by decide), if_neg (by decide), hd1]
  refine lthen_ok (q := ⟨d', m, e''⟩) h1' ?_
  simp only
  rw [if_neg (fun h => h.elim he.1 he.2), hd2, h2']

theorem lDict_stray {dec : Bytes → Res Bytes} {f1 f2 : Nat} {w l : Bytes} {o : Obj} {d d' : Dict} {n m : Nat} {e e' : List Err}
    (hw : Blank w) (h1 : lObj dec f1 l = .ok ⟨(o, .nil), n, e⟩) (ho : ∀ n, o ≠ .name n)
    (h2 : lDict dec f2 (l.drop n) d = .ok ⟨d', m, e'⟩) :
    lDict dec (max f1 f2 + 1) (w ++ l) d = .ok ⟨d', w.length + n + m, e ++ .invalidDictionaryKeyType :: e'⟩ := by
  have h1' : lObj dec (max f1 f2) (w ++ l) = _ :=
    lObj_blank_ok hw ((lObj_fuel dec (Nat.le_max_left f1 f2) (by rw [h1]; simp)).trans h1)
  have h2' : lDict dec (max f1 f2) (l.drop n) d = _ := (lDict_fuel dec (Nat.le_max_right f1 f2) (by rw [h2]; simp)).trans h2
  rw [lDict]
  have hd2 : List.drop (w.length + n) (w ++ l) = l.drop n := by
    rw [← List.drop_drop, List.drop_left]
  have hother : lthen (l.drop n) (lret () [.invalidDictionaryKeyType]) (fun _ t => lDict dec (max f1 f2) t d) =
      .ok ⟨d', 0 + m, [.invalidDictionaryKeyType] ++ e'⟩ := lthen_ok (r := ⟨(), 0, [.invalidDictionaryKeyType]⟩) (q := ⟨d', m, e'⟩) rfl h2'
  refine (lthen_ok (q := ⟨d', 0 + m, [.invalidDictionaryKeyType] ++ e'⟩) h1' ?_).trans (by simp)
  simp only
  rw [if_neg (by decide), if_neg (by decide), hd2]
  cases o with
  | name k => exact absurd rfl (ho k)
  | _ => exact hother

theorem objAt_read : ∀ {o : Obj} {t r : Bytes} {e : List Err}, ObjAt o t r e →
    ∃ f, lObj noDec f (t ++ r) = .ok ⟨(o, .nil), t.length, e⟩ := by
  intro o t r e h
  refine ObjAt.rec
    (motive_1 := fun o t r e _ => ∃ f, lObj noDec f (t ++ r) = .ok ⟨(o, .nil), t.length, e⟩)
    (motive_2 := fun os t r e _ => ∀ acc, ∃ f, lArr noDec f (t ++ r) acc = .ok ⟨acc ++ os, t.length, e⟩)
    (motive_3 := fun es t r e _ => ∀ d : Dict, ∃ f, lDict noDec f (t ++ r) d = .ok ⟨es.foldl (fun d e => d.set e.1 e.2) d, t.length, e⟩)
    ?kw ?int ?real ?ref ?name ?str ?hex ?arr ?dict ?anil ?acons ?dnil ?dcons h
  case kw =>
    intro b k r hb h1 h2 h3 h4 hk hs
    have hnd : (isDigit b || b == ch%'+' || b == ch%'-' || b == ch%'.') = false := by
      rw [← isDigit_iff] at h1
      simp [h1, h2, h3, h4]
    refine ⟨1, ?_⟩
    rw [List.cons_append, lObj_kw hb hnd]
    have hz : skipWs false (b :: (k ++ r)) = 0 := skipWs_cons (regular_char b hb).1 (regular_char b hb).2.1
    have : kwGo (b :: k ++ r) = b :: k := kwGo_regular (by
      intro c hc
      rcases List.mem_cons.1 hc with rfl | hc
      · exact hb
      · exact hk c hc) hs
    simp only [lKeyword, hz, List.drop_zero]
    rw [← List.cons_append, this]
    simp
  case int =>
    intro neg sg ds r hs hd hne hv hr hp href
    obtain ⟨b, t, e1, e2⟩ := sign_num hs hd (by cases ds with | nil => exact absurd rfl hne | cons _ _ => simp) r
    have hn := lNumber_int (w := []) .nil hs hd hne hr hp hv
    simp only [List.nil_append, List.length_nil, Nat.zero_add] at hn
    have hnr : lNumOrRef (sg ++ (ds.map decDigit ++ r)) = _ := lNumOrRef_num (by
      rw [hn]
      simp only
      rw [← List.append_assoc, List.drop_left' (by simp)]
      exact href)
    rw [hn] at hnr
    refine ⟨1, ?_⟩
    rw [List.append_assoc, e1, lObj_num e2, ← e1, hnr, signed_eq]
    simp
  case real =>
    intro neg sg ds fs x y z r hs hd hf hne hx hy hz hr href
    have hn := lNumber_text (w := []) .nil hs hd (some fs) (by rintro _ ⟨⟩; exact hf) (by simp [numberText]) hr (by intro h; cases h)
    simp only [List.nil_append, List.length_nil, Nat.zero_add, numberText, Option.getD_some] at hn
    obtain ⟨k1, k2⟩ := wholeFold_double ds hd
    obtain ⟨l1, l2⟩ := fracFold_double k2 fs
    obtain rfl := WholeDouble.unique hx k1
    obtain rfl := FractionDouble.unique hy l1
    have hz' : (if neg then (fracFold fs (wholeFold ds (.fin 0)) 1).neg else fracFold fs (wholeFold ds (.fin 0)) 1) = z := by
      cases neg with
      | false => simpa using hz.symm
      | true => exact opposite_unique (neg_good l2) hz
    rw [hz'] at hn
    have hnr : lNumOrRef (sg ++ (ds.map decDigit ++ 46 :: fs.map decDigit ++ r)) = _ := lNumOrRef_num (by
      rw [hn]
      simp only
      rw [← List.append_assoc, List.drop_left' (by simp)]
      exact href)
    rw [hn] at hnr
    obtain ⟨b, t, e1, e2⟩ : ∃ b t, sg ++ (ds.map decDigit ++ 46 :: fs.map decDigit ++ r) = b :: t ∧ (isDigit b || b == ch%'+' || b == ch%'-' || b == ch%'.') = true := by
      cases hs with
      | plus => exact ⟨_, _, rfl, by decide⟩
      | minus => exact ⟨_, _, rfl, by decide⟩
      | none =>
        cases ds with
        | nil => exact ⟨_, _, rfl, by decide⟩
        | cons d ds => exact ⟨_, _, rfl, by simp [(decDigit_facts (hd d (by simp))).1]⟩
    refine ⟨1, ?_⟩
    rw [List.append_assoc, e1, lObj_num e2, ← e1, hnr]
    simp
  case ref =>
    intro ds w gs w' r hd hne hv hw hwne hg hgne hgv hw' hwne' hs
    have hnd : NoDigit (w ++ (gs.map decDigit ++ (w' ++ 82 :: r))) := by
      cases hw with
      | nil => exact absurd rfl hwne
      | ws hb _ => rintro b t ⟨⟩; exact white_noDigit (.inl hb)
      | comment _ _ _ => rintro b t ⟨⟩; exact white_noDigit (.inr rfl)
    have hnp : ∀ u, w ++ (gs.map decDigit ++ (w' ++ 82 :: r)) ≠ 46 :: u := by
      cases hw with
      | nil => exact absurd rfl hwne
      | ws hb _ =>
        rintro u h
        injection h with h1 _
        subst h1
        revert hb; decide
      | comment _ _ _ => rintro u h; injection h with h1 _; revert h1; decide
    have hl : ds.map decDigit ++ (w ++ (gs.map decDigit ++ (w' ++ [82]))) ++ r =
        ds.map decDigit ++ (w ++ (gs.map decDigit ++ (w' ++ 82 :: r))) := by simp
    rw [hl]
    have hn := lNumber_int (w := []) (sg := []) .nil .none hd hne hnd hnp hv
    simp only [List.nil_append, List.length_nil, Nat.zero_add] at hn
    obtain ⟨g, hg1, hg2⟩ := lNumOrRef_ref (l := ds.map decDigit ++ (w ++ (gs.map decDigit ++ (w' ++ 82 :: r)))) (w := w) (w' := w') (r := r) (gs := gs)
      (by rw [hn]; simp only; rw [List.drop_left' (by simp)]) hw hw' hgne hg hs
    have hgeq : g = (decVal gs : Int) := IsInt64Of.unique hg1 ⟨by omega, by exact_mod_cast hgv, 0, by simp⟩
    rw [hn, signed_toInt false hv, hgeq] at hg2
    obtain ⟨b, t, e1, e2⟩ := sign_num (sg := []) .none hd (by cases ds with | nil => exact absurd rfl hne | cons _ _ => simp) (w ++ (gs.map decDigit ++ (w' ++ 82 :: r)))
    rw [List.nil_append] at e1
    refine ⟨1, ?_⟩
    rw [e1, lObj_num e2, ← e1, hg2]
    simp; omega
  case name =>
    intro v t r e hn hs
    exact ⟨1, by rw [List.cons_append, lObj_name, nameGo_text hn _ hs]; simp; omega⟩
  case str =>
    intro v t r e hn
    refine ⟨1, ?_⟩
    rw [List.cons_append, lObj_str, List.append_assoc, List.singleton_append, strGo_closed hn]
    simp [lDec, noDec, LR.pre]; omega
  case hex =>
    intro ds t r hn
    refine ⟨1, ?_⟩
    rw [List.cons_append, lObj_hex, List.append_assoc, List.singleton_append, hexGo_closed hn]
    · simp [lDec, noDec, LR.pre]; omega
    · intro u hu
      cases t with
      | nil => cases hu
      | cons b t =>
        injection hu with h1 _
        exact hexBody_head hn t (by rw [h1])
  case arr =>
    intro os t r e _ ih
    obtain ⟨f, hf⟩ := ih []
    refine ⟨f + 1, ?_⟩
    rw [List.cons_append, lObj_arr]
    have := lthen_ok (l := t ++ r) (q := ⟨(Obj.arr os, RErr.nil), 0, []⟩) (g := fun a _ => lret (Obj.arr a, RErr.nil)) hf rfl
    rw [lskip_ok (q := ⟨(Obj.arr os, RErr.nil), t.length, e⟩) (by simpa using this)]
    simp; omega
  case dict =>
    intro es t r e _ ih
    obtain ⟨f, hf⟩ := ih []
    refine ⟨f + 1, ?_⟩
    rw [List.cons_append, List.cons_append, lObj_dict]
    have := lthen_ok (l := t ++ r) (q := ⟨(Obj.dict (dictOf es), RErr.nil), 0, []⟩) (g := fun a _ => lret (Obj.dict a, RErr.nil)) hf rfl
    rw [lskip_ok (q := ⟨(Obj.dict (dictOf es), RErr.nil), t.length, e⟩) (by simpa using this)]
    simp; omega
  case anil =>
    intro w r hw acc
    refine ⟨2, ?_⟩
    rw [lArr]
    have := lObj_blank_ok hw (lObj_endArr noDec 0 r)
    rw [List.append_assoc]
    exact (lthen_ok (q := ⟨acc, 0, []⟩) this rfl).trans (by simp)
  case acons =>
    intro w o t u os r e e' hw _ _ ih1 ih2 acc
    obtain ⟨f1, h1⟩ := ih1
    obtain ⟨f2, h2⟩ := ih2 (acc ++ [o])
    have h1' : lObj noDec (max f1 f2) (w ++ (t ++ (u ++ r))) = _ :=
      lObj_blank_ok hw ((lObj_fuel noDec (Nat.le_max_left f1 f2) (by rw [h1]; simp)).trans h1)
    have h2' : lArr noDec (max f1 f2) (u ++ r) (acc ++ [o]) = _ := (lArr_fuel noDec (Nat.le_max_right f1 f2) (by rw [h2]; simp)).trans h2
    refine ⟨max f1 f2 + 1, ?_⟩
    rw [lArr]
    have hl : w ++ (t ++ u) ++ r = w ++ (t ++ (u ++ r)) := by simp
    rw [hl]
    refine (lthen_ok (q := ⟨acc ++ [o] ++ os, u.length, e'⟩) h1' ?_).trans ?_
    · simp only
      rw [if_neg (by decide), if_neg (by decide), ← List.drop_drop, List.drop_left, List.drop_left, h2']
    · simp; omega
  case dnil =>
    intro w r hw d
    exact ⟨2, by rw [lDict_end hw]; simp⟩
  case dcons =>
    intro w k kt w' o t u es r e e' e'' hw hk hw' hs _ _ ih1 ih2 d
    obtain ⟨f1, h1⟩ := ih1
    obtain ⟨f2, h2⟩ := ih2 (d.set k o)
    have := lDict_entry (d := d) hw hk hw' hs .nil h1 (by decide) (by rw [List.drop_left]; exact h2)
    refine ⟨max (max f1 f2) 1 + 1, ?_⟩
    rw [show w ++ (47 :: kt ++ (w' ++ (t ++ u))) ++ r = w ++ (47 :: kt ++ (w' ++ (t ++ (u ++ r)))) by simp, this]
    simp; omega

theorem dictAny_read {es : List (Bytes × Obj)} {t r : Bytes} {e : List Err} (h : DictAny es t r e) :
    ∀ d : Dict, ∃ f, lDict noDec f (t ++ r) d = .ok ⟨es.foldl (fun d e => d.set e.1 e.2) d, t.length, e⟩ := by
  induction h with
  | nil hw => intro d; exact ⟨2, by rw [lDict_end hw]; simp⟩
  | @cons w k kt w' o t u es r e e' e'' hw hk hw' hs ho _ ih =>
    intro d
    obtain ⟨f1, h1⟩ := objAt_read ho
    obtain ⟨f2, h2⟩ := ih (d.set k o)
    have := lDict_entry (d := d) hw hk hw' hs .nil h1 (by decide) (by rw [List.drop_left]; exact h2)
    refine ⟨max (max f1 f2) 1 + 1, ?_⟩
    rw [show w ++ (47 :: kt ++ (w' ++ (t ++ u))) ++ r = w ++ (47 :: kt ++ (w' ++ (t ++ (u ++ r)))) by simp, this]
    simp; omega
  | @stray w o t u es r e e' hw ho hn _ ih =>
    intro d
    obtain ⟨f1, h1⟩ := objAt_read ho
    obtain ⟨f2, h2⟩ := ih d
    have := lDict_stray (d := d) hw h1 hn (by rw [List.drop_left]; exact h2)
    refine ⟨max f1 f2 + 1, ?_⟩
    rw [show w ++ (t ++ u) ++ r = w ++ (t ++ (u ++ r)) by simp, this]
    simp; omega

/-! ### Cut-off text -/

theorem skipWs_open {u : Bytes} (h : OpenComment u) : skipWs false u = u.length := by
  have key : ∀ c : Bytes, (∀ b ∈ c, b ≠ 10 ∧ b ≠ 13) → skipWs true c = c.length := by
    intro c
    induction c with
    | nil => intro _; rfl
    | cons b c ih =>
      intro hc
      have hb := hc b (by simp)
      rw [skipWs]
      rw [show isEol b = false by simp [isEol, hb.1, hb.2]]
      simp [ih (fun x hx => hc x (by simp [hx]))]
  rcases h with rfl | ⟨c, rfl, hc⟩
  · rfl
  · rw [skipWs, if_pos (by decide), key c hc]; rfl

theorem lObj_blankEnd {w : Bytes} (h : BlankEnd w) (dec : Bytes → Res Bytes) (f : Nat) :
    lObj dec (f + 1) w = .ok ⟨(Obj.null, .readError), w.length, []⟩ := by
  obtain ⟨b, c, rfl, hb, hc⟩ := h
  have : lObj dec (f + 1) c = .ok ⟨(Obj.null, .readError), c.length, []⟩ := by
    rw [lObj, skipWs_open hc]
    rw [lskip_ok (q := ⟨(Obj.null, .readError), 0, []⟩) (by rw [List.drop_length]; rfl)]
    simp
  rw [lObj_blank_ok hb this]
  simp

theorem openStr_read {v t : Bytes} {e : List Err} (h : OpenStr v t e) : ∀ o, strGo 0 (o + 1) t = ⟨v, t.length, e⟩ := by
  induction h with
  | @eof v t e ht hn =>
    intro o
    have := strGo_follow ht o [] (.inr ⟨rfl, hn⟩)
    rw [List.append_nil] at this
    rw [this]
    simp [strGo, LR.pre]
  | @paren v t e v' t' e' ht _ ih =>
    intro o
    rw [strGo_follow ht o (40 :: t') (.inl ⟨40, t', rfl, by decide, by decide⟩), strGo, if_neg (by decide),
      show strOpens (o + 1) 40 = (o + 1) + 1 from rfl, if_neg (by omega), ih]
    simp [LR.pre]; omega
  | @backslash v t e ht =>
    intro o
    rw [strGo_follow ht o [92] (.inl ⟨92, [], rfl, by decide, by decide⟩), strGo, if_pos (by decide)]
    simp [strEsc, LR.pre]

theorem lDict_lastKey {dec : Bytes → Res Bytes} {w k kt w' : Bytes} {d : Dict} {e : List Err}
    (hw : Blank w) (hk : NameText k kt e) (hw' : BlankEnd w') (hs : Stops w') :
    lDict dec 2 (w ++ (47 :: kt ++ w')) d =
      .ok ⟨d, (w ++ (47 :: kt ++ w')).length, e ++ [.missingDictionaryValue]⟩ := by
  have hname : lObj dec 1 (47 :: kt ++ w') = .ok ⟨(.name k, .nil), 1 + kt.length, e⟩ := by
    rw [List.cons_append, lObj_name, nameGo_text hk _ hs]
  have hname' := lObj_blank_ok hw hname
  have hd1 : List.drop (w.length + (1 + kt.length)) (w ++ (47 :: kt ++ w')) = w' := by
    rw [← List.append_assoc, List.drop_left' (by simp; omega)]
  rw [lDict]
  refine (lthen_ok (q := ⟨d, w'.length, [.missingDictionaryValue]⟩) hname' ?_).trans ?_
  · simp only
    rw [if_neg (by decide), if_neg (by decide), hd1]
    refine (lthen_ok (q := ⟨d, 0, [.missingDictionaryValue]⟩) (lObj_blankEnd hw' dec 0) ?_).trans ?_
    · simp only
      rw [if_pos (by simp)]
      rfl
    · simp
  · simp; omega

theorem openAt_read : ∀ {o : Obj} {t : Bytes} {e : List Err}, OpenAt o t e →
    ∃ f, lObj noDec f t = .ok ⟨(o, .nil), t.length, e⟩ := by
  intro o t e h
  refine OpenAt.rec
    (motive_1 := fun o t e _ => ∃ f, lObj noDec f t = .ok ⟨(o, .nil), t.length, e⟩)
    (motive_2 := fun os t e _ => ∀ acc, ∃ f, lArr noDec f t acc = .ok ⟨acc ++ os, t.length, e⟩)
    (motive_3 := fun es t e _ => ∀ d : Dict, ∃ f, lDict noDec f t d = .ok ⟨es.foldl (fun d e => d.set e.1 e.2) d, t.length, e⟩)
    ?str ?hex ?arr ?dict ?aeof ?alast ?acons ?deof ?dkey ?dlast ?dcons h
  case str =>
    intro v t e hn
    refine ⟨1, ?_⟩
    rw [lObj_str, openStr_read hn 0]
    simp [lDec, noDec, LR.pre]; omega
  case hex =>
    intro ds t u k hn hu ht
    refine ⟨1, ?_⟩
    rw [lObj_hex, hexGo_unclosed hn hu]
    · simp [lDec, noDec, LR.pre]; omega
    · intro x hx
      cases t with
      | nil =>
        rcases hu with rfl | ⟨c, rfl, _⟩
        · cases hx
        · injection hx with h1 _; revert h1; decide
      | cons b t =>
        injection hx with h1 _
        exact ht t (by rw [h1])
  case arr =>
    intro os t e _ ih
    obtain ⟨f, hf⟩ := ih []
    refine ⟨f + 1, ?_⟩
    rw [lObj_arr]
    have := lthen_ok (l := t) (q := ⟨(Obj.arr os, RErr.nil), 0, []⟩) (g := fun a _ => lret (Obj.arr a, RErr.nil)) hf rfl
    rw [lskip_ok (q := ⟨(Obj.arr os, RErr.nil), t.length, e⟩) (by simpa using this)]
    simp; omega
  case dict =>
    intro es t e _ ih
    obtain ⟨f, hf⟩ := ih []
    refine ⟨f + 1, ?_⟩
    rw [lObj_dict]
    have := lthen_ok (l := t) (q := ⟨(Obj.dict (dictOf es), RErr.nil), 0, []⟩) (g := fun a _ => lret (Obj.dict a, RErr.nil)) hf rfl
    rw [lskip_ok (q := ⟨(Obj.dict (dictOf es), RErr.nil), t.length, e⟩) (by simpa using this)]
    simp; omega
  case aeof =>
    intro w hw acc
    refine ⟨2, ?_⟩
    rw [lArr]
    refine (lthen_ok (q := ⟨acc, 0, [.unclosedArray]⟩) (lObj_blankEnd hw noDec 0) ?_).trans (by simp)
    simp only
    rw [if_pos trivial]
    rfl
  case alast =>
    intro w o t e hw _ ih acc
    obtain ⟨f, hf⟩ := ih
    refine ⟨max f 2 + 1, ?_⟩
    have hf' : lObj noDec (max f 2) (w ++ t) = _ :=
      lObj_blank_ok hw ((lObj_fuel noDec (Nat.le_max_left f 2) (by rw [hf]; simp)).trans hf)
    rw [lArr]
    refine (lthen_ok (q := ⟨acc ++ [o], 0, [.unclosedArray]⟩) hf' ?_).trans (by simp)
    simp only
    rw [if_neg (by decide), if_neg (by decide), ← List.drop_drop, List.drop_left, List.drop_length]
    obtain ⟨F, hF⟩ : ∃ F, max f 2 = F + 1 + 1 := ⟨max f 2 - 2, by omega⟩
    rw [hF, lArr]
    refine (lthen_ok (q := ⟨acc ++ [o], 0, [.unclosedArray]⟩) (lObj_nil noDec F) ?_).trans (by simp)
    simp only
    rw [if_pos trivial]
    rfl
  case acons =>
    intro w o t u os e e' hw ho _ ih2 acc
    obtain ⟨f1, h1⟩ := objAt_read ho
    obtain ⟨f2, h2⟩ := ih2 (acc ++ [o])
    have h1' : lObj noDec (max f1 f2) (w ++ (t ++ u)) = _ :=
      lObj_blank_ok hw ((lObj_fuel noDec (Nat.le_max_left f1 f2) (by rw [h1]; simp)).trans h1)
    have h2' : lArr noDec (max f1 f2) u (acc ++ [o]) = _ := (lArr_fuel noDec (Nat.le_max_right f1 f2) (by rw [h2]; simp)).trans h2
    refine ⟨max f1 f2 + 1, ?_⟩
    rw [lArr]
    refine (lthen_ok (q := ⟨acc ++ [o] ++ os, u.length, e'⟩) h1' ?_).trans ?_
    · simp only
      rw [if_neg (by decide), if_neg (by decide), ← List.drop_drop, List.drop_left, List.drop_left, h2']
    · simp; omega
  case deof =>
    intro w hw d
    refine ⟨2, ?_⟩
    rw [lDict]
    refine (lthen_ok (q := ⟨d, 0, [.unclosedDictionary]⟩) (lObj_blankEnd hw noDec 0) ?_).trans (by simp)
    simp only
    rw [if_pos trivial]
    rfl
  case dkey =>
    intro w k kt w' e hw hk hw' hs d
    exact ⟨2, by rw [lDict_lastKey hw hk hw' hs]; rfl⟩
  case dlast =>
    intro w k kt w' o t e e' hw hk hw' hs _ ih d
    obtain ⟨f1, h1⟩ := ih
    have hend : lDict noDec 2 [] (d.set k o) = .ok ⟨d.set k o, 0, [.unclosedDictionary]⟩ := by
      rw [lDict]
      refine (lthen_ok (q := ⟨d.set k o, 0, [.unclosedDictionary]⟩) (lObj_nil noDec 0) ?_).trans (by simp)
      simp only
      rw [if_pos trivial]
      rfl
    have := lDict_entry (d := d) hw hk hw' hs .nil h1 (by decide) (by rw [List.drop_length]; exact hend)
    refine ⟨max (max f1 2) 1 + 1, ?_⟩
    rw [this]
    simp; omega
  case dcons =>
    intro w k kt w' o t u es e e' e'' hw hk hw' hs ho _ ih2 d
    obtain ⟨f1, h1⟩ := objAt_read ho
    obtain ⟨f2, h2⟩ := ih2 (d.set k o)
    have := lDict_entry (d := d) hw hk hw' hs .nil h1 (by decide) (by rw [List.drop_left]; exact h2)
    refine ⟨max (max f1 f2) 1 + 1, ?_⟩
    rw [this]
    simp; omega

/-! ### Transfer to the reader -/

theorem noDec_ne (b : Bytes) : noDec b ≠ .oof := by simp [noDec]

/-- A list-level result with any fuel is what `ReadObject` returns. -/
theorem readObj_of_lObj {dec : Bytes → Res Bytes} (hdec : ∀ b, dec b ≠ .oof) {file l : Bytes} {s : PS} {f : Nat} {r : LR (Obj × RErr)}
    (hl : file.drop s.pos = l) (h : lObj dec f l = .ok r) :
    ∃ s', readObj file dec s = .ok (r.val, s') ∧ s'.pos = s.pos + r.n ∧ s'.log = s.log ++ r.errs := by
  have hr := (readObject_spec file dec (objFuel file)).1 s
  have hrest : rest file s = l := hl
  rw [hrest] at hr
  have hlen : l.length ≤ file.length := by rw [← hl]; simp
  have hg := (lObj_good hdec (objFuel file)).1 l (by simp only [objFuel]; omega)
  have hne : lObj dec (objFuel file) l ≠ .oof := by
    intro h0; rw [h0] at hg; exact hg
  have e1 := lObj_fuel dec (Nat.le_max_left f (objFuel file)) (l := l) (by rw [h]; simp)
  have e2 := lObj_fuel dec (Nat.le_max_right f (objFuel file)) (l := l) hne
  rw [← e2, e1, h] at hr
  rw [readObj]
  generalize readObject file dec (objFuel file) s = x at *
  match x, hr with
  | .ok (a, s'), ⟨h1, h2⟩ => exact ⟨s', by rw [h1], h2.pos, h2.log⟩

end Pdf
