import Verif.Lemmas.Layout
import Verif.Lemmas.StartXref
import Verif.Lemmas.Print
import Verif.Props.Load
import Verif.Props.IndObj
/-!
`Load` on files made up of objects.
-/

namespace Pdf
open Spec St Props

/-! ### What scanning makes of an object -/

/-- What the text of an object starts with. -/
theorem objAt_first {o : Obj} {t r : Bytes} {e : List Err} (h : ObjAt o t r e) :
    (∃ es u, o = .dict (dictOf es) ∧ t = 60 :: 60 :: u ∧ DictAt es u r e) ∨ (∃ b u, t = b :: u ∧ ¬ IsWhite b ∧ b ≠ 37 ∧ (∀ x, t ++ r ≠ 60 :: 60 :: x) ∧ ∀ d, o ≠ .dict d) := by
  have key : ∀ {b : UInt8} {u : Bytes}, b ≠ 60 → ∀ x, b :: u ++ r ≠ 60 :: 60 :: x := by
    intro b u hb x h
    exact hb (List.cons.inj h).1
  cases h with
  | @kw b k _ hb _ _ _ _ _ _ =>
    have h60 : b ≠ 60 := by rintro rfl; revert hb; decide
    exact .inr ⟨b, k, rfl, hb.1, by rintro rfl; revert hb; decide, key h60, by simp⟩
  | @int neg sg ds _ hs hd hne _ _ _ _ =>
    right
    cases hs with
    | none =>
      cases ds with
      | nil => exact absurd rfl hne
      | cons d ds =>
        have : ∀ x < 10, decDigit x ≠ 60 ∧ ¬ IsWhite (decDigit x) ∧ decDigit x ≠ 37 := by decide
        obtain ⟨h1, h2, h3⟩ := this d (hd d (by simp))
        exact ⟨decDigit d, _, rfl, h2, h3, key h1, by simp⟩
    | plus => exact ⟨43, _, rfl, by decide, by decide, key (by decide), by simp⟩
    | minus => exact ⟨45, _, rfl, by decide, by decide, key (by decide), by simp⟩
  | @real neg sg ds fs x y z _ hs hd _ _ _ _ _ _ _ =>
    right
    cases hs with
    | none =>
      cases ds with
      | nil => exact ⟨46, _, rfl, by decide, by decide, key (by decide), by simp⟩
      | cons d ds =>
        have : ∀ x < 10, decDigit x ≠ 60 ∧ ¬ IsWhite (decDigit x) ∧ decDigit x ≠ 37 := by decide
        obtain ⟨h1, h2, h3⟩ := this d (hd d (by simp))
        exact ⟨decDigit d, _, rfl, h2, h3, key h1, by simp⟩
    | plus => exact ⟨43, _, rfl, by decide, by decide, key (by decide), by simp⟩
    | minus => exact ⟨45, _, rfl, by decide, by decide, key (by decide), by simp⟩
  | @ref ds w gs w' _ hd hne _ _ _ _ _ _ _ _ _ =>
    right
    cases ds with
    | nil => exact absurd rfl hne
    | cons d ds =>
      have : ∀ x < 10, decDigit x ≠ 60 ∧ ¬ IsWhite (decDigit x) ∧ decDigit x ≠ 37 := by decide
      obtain ⟨h1, h2, h3⟩ := this d (hd d (by simp))
      exact ⟨decDigit d, _, rfl, h2, h3, key h1, by simp⟩
  | name _ _ => exact .inr ⟨47, _, rfl, by decide, by decide, key (by decide), by simp⟩
  | str _ => exact .inr ⟨40, _, rfl, by decide, by decide, key (by decide), by simp⟩
  | arr _ => exact .inr ⟨91, _, rfl, by decide, by decide, key (by decide), by simp⟩
  | @hex ds t _ hb =>
    refine .inr ⟨60, _, rfl, by decide, by decide, ?_, by simp⟩
    intro x hx
    have hx := (List.cons.inj hx).2
    cases hb with
    | nil => cases hx
    | digit hc _ =>
      obtain ⟨rfl, -⟩ := List.cons.inj hx
      have : ∀ n < 16, ¬ ((60 : UInt8) = hexLower n ∨ (60 : UInt8) = hexUpper n) := by decide
      exact this _ hc.1 hc.2
    | ws hc _ => obtain ⟨rfl, -⟩ := List.cons.inj hx; revert hc; decide
    | comment _ _ _ => cases hx
  | @dict es t _ _ hd => exact .inl ⟨es, t, rfl, rfl, hd⟩

theorem dictAny_of : ∀ {es : List (Bytes × Obj)} {t r : Bytes} {e : List Err}, DictAt es t r e → DictAny es t r e
  | [], _, _, _, h => by cases h with | nil h => exact .nil h
  | _ :: _, _, _, _, h => by cases h with | cons h1 h2 h3 h4 h5 h6 => exact .cons h1 h2 h3 h4 h5 (dictAny_of h6)

/-- `ReadDictionary` in front of an object gives its dictionary or nothing. -/
theorem readDictionary_object {file : Bytes} {off : Nat} {s : PS} (hg : Grid file off s) {o : Obj} {w t r : Bytes} {e : List Err} (hw : Blank w) (ho : ObjAt o t r e)
    (hin : rest file s = w ++ (t ++ r)) {d : Dict} {s' : PS} (h : readDictionary file noDec s = .ok (d, s')) : d = [] ∨ o = .dict d := by
  rcases objAt_first ho with ⟨es, u, rfl, rfl, hd⟩ | ⟨b, u, rfl, hb, hb', hno, -⟩
  · by_cases hp : (s.pos + w.length) % 4096 = (off + 4095) % 4096
    · obtain ⟨s2, h2⟩ := readDictionary_missed hg hw hin hp
      rw [h] at h2
      cases h2; exact .inl rfl
    · obtain ⟨s2, h2, -⟩ := readDictionary_grid hg hw (dictAny_of hd) hin hp
      rw [h] at h2
      cases h2; exact .inr rfl
  · left
    have hws := consumeWs_step file s
    have hz : skipWs false (b :: u ++ r) = 0 := skipWs_zero hb hb'
    rw [hin, skipWs_blank hw, hz, Nat.add_zero] at hws
    have hr1 : rest file (consumeWs file s) = b :: u ++ r := by rw [rest_eq hws.pos, hin, List.drop_left]
    have hne : (readN file (consumeWs file s) 2).1 ≠ [60, 60] := by
      intro h2
      have hpre : ∃ k, (readN file (consumeWs file s) 2).1 = (rest file (consumeWs file s)).take k := by
        rw [readN, rest]
        split
        · exact ⟨_, rfl⟩
        · split
          · exact ⟨_, rfl⟩
          · exact ⟨0, rfl⟩
      obtain ⟨k, hk⟩ := hpre
      rw [h2] at hk
      have h3 := List.take_append_drop k (rest file (consumeWs file s))
      rw [← hk, hr1] at h3
      exact hno _ h3.symm
    rw [readDictionary, readDictHead] at h
    generalize readN file (consumeWs file s) 2 = q at h hne
    obtain ⟨q1, q2⟩ := q
    dsimp only at h hne
    have : (q1 == b!"<<") = false := by simpa using hne
    rw [this] at h
    cases h
    rfl

/-- Where there is no dictionary. -/
theorem readDictionary_other {file : Bytes} {s : PS} {w r : Bytes} {b : UInt8} (hw : Blank w) (hb : ¬ IsWhite b) (hb' : b ≠ 37) (hlt : b ≠ 60) (hin : rest file s = w ++ b :: r) :
    ∃ s', readDictionary file noDec s = .ok ([], s') := by
  have hws := consumeWs_step file s
  have hz : skipWs false (b :: r) = 0 := skipWs_zero hb hb'
  rw [hin, skipWs_blank hw, hz, Nat.add_zero] at hws
  have hr1 : rest file (consumeWs file s) = b :: r := by rw [rest_eq hws.pos, hin, List.drop_left]
  have hne : (readN file (consumeWs file s) 2).1 ≠ [60, 60] := by
    intro h2
    have hpre : ∃ k, (readN file (consumeWs file s) 2).1 = (rest file (consumeWs file s)).take k := by
      rw [readN, rest]
      split
      · exact ⟨_, rfl⟩
      · split
        · exact ⟨_, rfl⟩
        · exact ⟨0, rfl⟩
    obtain ⟨k, hk⟩ := hpre
    rw [h2] at hk
    have h3 := List.take_append_drop k (rest file (consumeWs file s))
    rw [← hk, hr1] at h3
    exact hlt (List.cons.inj h3).1.symm
  rw [readDictionary, readDictHead]
  generalize readN file (consumeWs file s) 2 = q at hne
  obtain ⟨q1, q2⟩ := q
  dsimp only at hne ⊢
  have : (q1 == b!"<<") = false := by simpa using hne
  rw [this]
  exact ⟨_, rfl⟩

/-- With no entries every reference is null. -/
theorem resolver_empty {env : Env} (hx : env.xref = []) (f : Nat) (n : Int) (s : PS) : resolver env (f + 1) n s = .ok (newIndObj n, seek s (currentOffset s)) := by
  have h : getObjectF env (fun m => keepOffset (resolve env f [] m)) n = pure (newIndObj n) := by
    rw [getObjectF, hx]; rfl
  rw [resolver, keepOffset, resolve, if_neg (by simp), h]
  rfl

theorem getName_empty {env : Env} (hx : env.xref = []) (f : Nat) (d : Dict) (k : Bytes) (s : PS) :
    ∃ s', Dict.getName (resolver env (f + 1)) d k s = .ok ((d.get? k).bind Obj.asName?, s') := by
  cases hd : d.get? k with
  | none => exact ⟨s, Dict.getName_none s hd⟩
  | some o =>
    by_cases hr : ∃ n g, o = .ref n g
    · obtain ⟨n, g, rfl⟩ := hr
      refine ⟨seek s (currentOffset s), ?_⟩
      rw [Dict.getName, Dict.getObject_ref hd, bind_run, bind_run, resolver_empty hx]
      rfl
    · exact ⟨s, Dict.getName_direct s hd fun n g h => hr ⟨n, g, h⟩⟩

/-- `findObjects` with no entries: it returns; which objects it takes for cross reference streams. -/
theorem findObjectsLoop_empty (cfg : Cfg) (f : Nat) : ∀ (k off : Nat) (objs : Assoc Int XrefEntry) (s : LS), s.xref = [] →
    ∃ objs' ps, findObjectsLoop cfg (fun env => resolver env (f + 1)) k off objs s = .ok (objs', { s with ps := ps }) ∧
      ∀ n o, objs'.get? n = some o → objs.get? n = some o ∨ (o.isXrefStream = true → ∃ q d q', o.offset ≥ 0 ∧ readDictionary cfg.file noDec (readObjectHeader cfg.file (seek q o.offset)).2 = .ok (d, q') ∧
        d.get? b!"Type" = some (.name b!"XRef")) := by
  intro k
  induction k with
  | zero => intro off objs s _; exact ⟨objs, s.ps, rfl, fun n o h => .inl h⟩
  | succ k ih =>
    intro off objs s hx
    rw [findObjectsLoop]
    cases findRe objRe 0 (cfg.file.drop off) with
    | none => exact ⟨objs, s.ps, rfl, fun n o h => .inl h⟩
    | some p =>
      obtain ⟨i, j⟩ := p
      dsimp only
      cases hh : readObjectHeader cfg.file (seek s.ps ((off + i : Nat) : Int)) with | mk hd ps2 =>
      obtain ⟨n, g, ok⟩ := hd
      obtain ⟨d, ps3, h3⟩ := readDictionary_ok cfg.file ps2
      obtain ⟨ps4, h4⟩ := getName_empty (env := ({ s with ps := ps3 } : LS).env cfg) hx f d b!"Type" ps3
      obtain ⟨objs', ps, h5, h6⟩ := ih (off + j) (objs.set n ⟨((off + i : Nat) : Int), g, 1, !decide ((d.get? b!"Type").bind Obj.asName? = some b!"XRef"),
        decide ((d.get? b!"Type").bind Obj.asName? = some b!"XRef")⟩) { s with ps := ps4 } hx
      refine ⟨objs', ps, ?_, ?_⟩
      · refine (bind_of_ok (a := ()) (t := { s with ps := seek s.ps ((off + i : Nat) : Int) }) rfl).trans ?_
        refine (bind_of_ok (a := (n, g, ok)) (t := { s with ps := ps2 }) ?_).trans ?_
        · show (Res.ok (readObjectHeader cfg.file (seek s.ps ((off + i : Nat) : Int))) >>= fun p => Res.ok (p.1, ({ s with ps := p.2 } : LS))) = _
          rw [hh]; rfl
        dsimp only
        refine (bind_of_ok (a := d) (t := { s with ps := ps3 }) ?_).trans ?_
        · show (readDictionary cfg.file noDec ps2 >>= fun p => Res.ok (p.1, ({ s with ps := p.2 } : LS))) = _
          rw [h3]; rfl
        refine (bind_of_ok (a := (d.get? b!"Type").bind Obj.asName?) (t := { s with ps := ps4 }) ?_).trans ?_
        · show (Dict.getName (resolver (({ s with ps := ps3 } : LS).env cfg) (f + 1)) d b!"Type" ps3 >>= fun p => Res.ok (p.1, ({ s with ps := p.2 } : LS))) = _
          rw [h4]; rfl
        rw [h5]
      · intro n' o ho
        rcases h6 n' o ho with h | h
        · rw [Assoc.get?_set] at h
          split at h
          · cases h
            right
            intro hX
            refine ⟨s.ps, d, ps3, Int.natCast_nonneg _, ?_, ?_⟩
            · dsimp only; rw [hh]; exact h3
            · dsimp only at hX
              have hX := of_decide_eq_true hX
              cases hd : d.get? b!"Type" with
              | none => rw [hd] at hX; cases hX
              | some v =>
                rw [hd] at hX
                cases v <;> first | (cases hX; rfl) | cases hX
          · exact .inl h
        · exact .inr h

/-! ### Files made up of objects -/

theorem joined_append (a b : List Part) : joined (a ++ b) = joined a ++ joined b := by simp [joined]

theorem joined_cons (p : Part) (b : List Part) : joined (p :: b) = p.text ++ joined b := by simp [joined]

theorem ready_joined {rd : Reading} {P : Bytes} (hP : Ready P) : ∀ {ps : List Part}, (∀ p ∈ ps, ObjectText rd p.obj p.notes p.text) → Ready (P ++ joined ps) := by
  intro ps
  induction ps generalizing P with
  | nil => intro _; simpa [joined] using hP
  | cons p ps ih =>
    intro h
    obtain ⟨ds, gs, W, W', body, u, F⟩ := (h p (by simp)).frame
    rw [joined_cons, ← List.append_assoc]
    exact ih (F.ready hP) fun q hq => h q (by simp [hq])

theorem int64_nat {n : Nat} (h : n < 2 ^ 63) : IsInt64Of n n := ⟨by omega, by omega, 0, by simp⟩

section
variable {rd : Reading} {P Q : Bytes} {ps : List Part} (hm : Made rd P ps Q)
include hm

theorem Spec.Made.ready : Ready P := ⟨hm.start, hm.noOpen⟩

theorem Spec.Made.loose {pre : Bytes} {ds : List Nat} (h : LooseAt (P ++ (joined ps ++ Q)) pre ds) :
    ∃ ps1 p ps2, ps = ps1 ++ p :: ps2 ∧ pre = P ++ joined ps1 ∧ (Spec.decVal ds : Int) = p.obj.number := by
  obtain ⟨⟨t, e, hne, hd, w, gs, w', r, rfl, hw, hgne, hg, hw'⟩, hs⟩ := h
  have hP : Lacks b!"obj" P := fun a b e => hm.outside a (b ++ Q) (by rw [e]; simp)
  have hQ : Lacks b!"obj" Q := fun a b e => hm.outside (P ++ a) b (by rw [e]; simp)
  have e : P ++ (joined ps ++ Q) = (pre ++ (ds.map decDigit ++ (w ++ (gs.map decDigit ++ w')))) ++ (b!"obj" ++ r) := by rw [e]; simp
  cases ps with
  | nil => exact absurd e (hm.outside _ _)
  | cons p ps =>
    obtain ⟨z, e1, e2⟩ := occ_right hP (by
      intro b t hb
      obtain ⟨ds0, gs0, W, W', body, u, F⟩ := (hm.pieces p (by simp)).frame
      rw [joined_cons, F.text] at hb
      obtain ⟨h0, h1⟩ := F.digits.1
      cases hx : ds0.map decDigit with
      | nil => exact absurd hx h0
      | cons c l =>
        rw [hx] at hb
        obtain ⟨rfl, -⟩ := List.cons.inj hb
        have := h1 c (by rw [hx]; simp)
        intro hc
        simp only [List.tail_cons, List.mem_cons, List.not_mem_nil, or_false] at hc
        rcases hc with rfl | rfl <;> revert this <;> unfold IsDec <;> decide) e
    exact loose_place hQ hm.pieces hm.ready ⟨hne, hd⟩ ⟨hgne, hg⟩ hw hw' hs e2 e1.symm

theorem Spec.Made.marker {ps1 ps2 : List Part} {p : Part} (h : ps = ps1 ++ p :: ps2) :
    ∃ ds gs, Marker (P ++ (joined ps ++ Q)) (P ++ joined ps1) ds gs ∧ p.obj.number = Spec.decVal ds ∧ p.obj.generation = Spec.decVal gs ∧ Spec.decVal ds < 2 ^ 63 ∧ Spec.decVal gs < 2 ^ 63 := by
  subst h
  obtain ⟨ds, gs, W, W', body, u, F⟩ := (hm.pieces p (by simp)).frame
  refine ⟨ds, gs, ?_, F.number.1, F.generation.1, F.number.2.1, F.generation.2.1⟩
  have := F.marker (ready_joined hm.ready (ps := ps1) fun q hq => hm.pieces q (by simp [hq])) (joined ps2 ++ Q)
  rw [joined_append, joined_cons]
  simpa using this

theorem Spec.Made.last_at {n : Int} {p : Part} {ps1 ps2 : List Part} (e : ps = ps1 ++ p :: ps2) (hn : p.obj.number = n) (h3 : ∀ q ∈ ps2, q.obj.number ≠ n) :
    ∃ gs, LastMarker (P ++ (joined ps ++ Q)) (P ++ joined ps1) gs n ∧ p.obj.generation = Spec.decVal gs ∧ Spec.decVal gs < 2 ^ 63 := by
  obtain ⟨ds, gs, k1, k2, k3, k4, k5⟩ := hm.marker e
  refine ⟨gs, ⟨⟨ds, k1, ?_⟩, ?_⟩, k3, k5⟩
  · rw [← hn, k2]; exact int64_nat k4
  · intro pre' ds' hl hi
    obtain ⟨qs1, q, qs2, e', e2, e3⟩ := hm.loose hl
    obtain ⟨ds'', gs'', -, l1, -, l2, -⟩ := hm.marker e'
    have hq : q.obj.number = n := by
      rw [e3, l1] at hi
      rw [l1]
      exact IsInt64Of.unique (int64_nat l2) hi
    rw [e2]
    rw [e] at e'
    rcases List.append_eq_append_iff.1 e' with ⟨a, c1, c2⟩ | ⟨a, c1, c2⟩
    · cases a with
      | nil => rw [c1]; simp
      | cons x a =>
        obtain ⟨-, c2⟩ := List.cons.inj c2
        exact absurd hq (h3 q (by rw [c2]; simp))
    · rw [c1, joined_append]
      simp only [List.length_append]
      omega

theorem Spec.Made.last {n : Int} {p : Part} (h : lastWith ps n = some p) :
    p.obj.number = n ∧ ∃ ps1 ps2 gs, ps = ps1 ++ p :: ps2 ∧ LastMarker (P ++ (joined ps ++ Q)) (P ++ joined ps1) gs n ∧ p.obj.generation = Spec.decVal gs ∧ Spec.decVal gs < 2 ^ 63 := by
  obtain ⟨h1, as, bs, h2, h3⟩ := List.find?_eq_some_iff_append.1 h
  have hn : p.obj.number = n := by simpa using h1
  have e : ps = bs.reverse ++ p :: as.reverse := by
    have := congrArg List.reverse h2
    simpa using this
  obtain ⟨gs, k⟩ := hm.last_at e hn (fun q hq => by
    have := h3 q (List.mem_reverse.1 hq)
    simpa using this)
  exact ⟨hn, _, _, gs, e, k⟩

end

/-- The parts of an object's text that scanning reads. -/
theorem Spec.RawText.body {o : IndObj} {es : List Err} {T : Bytes} (h : RawText o es T) :
    ∃ ds gs hd w t r, HeaderText ds gs hd ∧ T = hd ++ (w ++ (t ++ r)) ∧ Blank w ∧ (∀ R, Stops (w ++ (t ++ (r ++ R)))) ∧ (∀ R, ObjAt o.value t (r ++ R) es) ∧
      (o.number = Spec.decVal ds ∧ Spec.decVal ds < 2 ^ 63) ∧ o.generation = Spec.decVal gs ∧ Spec.decVal gs < 2 ^ 63 := by
  have hb : ∀ {w : Bytes}, White w → Blank w := by
    intro w hw
    have : ∀ l : Bytes, (∀ b ∈ l, IsWhite b) → Blank l := by
      intro l
      induction l with
      | nil => intro _; exact .nil
      | cons c l ih => intro h; exact .ws (h c (by simp)) (ih fun b hb => h b (by simp [hb]))
    exact this w hw.2
  cases h with
  | @value n g h w t w' u o es hh h1 h2 h3 h4 h5 h6 h7 h8 =>
    obtain @⟨ds, gs, W, W', a1, a2, a3, a4, a5, a6, a7, a8⟩ := hh
    refine ⟨ds, gs, _, w, t, w' ++ (b!"endobj" ++ u), .mk .nil a1 a2 (hb a7) a7.1 a4 a5 (hb a8), by simp, h1, fun R => ?_, fun R => by simpa using h4 (u ++ R), ⟨rfl, a3⟩, rfl, a6⟩
    have := stops_append (r := (w' ++ (b!"endobj" ++ u)) ++ R) h2 (by simp [h3])
    simpa using this
  | @stream n g h w t w' eol d v y u D es hh h1 h2 h3 h4 h5 h6 h7 h8 h9 h10 h11 h12 h13 =>
    obtain @⟨ds, gs, W, W', a1, a2, a3, a4, a5, a6, a7, a8⟩ := hh
    refine ⟨ds, gs, _, w, t, w' ++ (b!"stream" ++ (eol ++ (d ++ (endMark ++ (y ++ (b!"endobj" ++ u)))))), .mk .nil a1 a2 (hb a7) a7.1 a4 a5 (hb a8), by simp, h1, fun R => ?_, fun R => ?_, ⟨rfl, a3⟩, rfl, a6⟩
    · have := stops_append (r := (w' ++ (b!"stream" ++ (eol ++ (d ++ (endMark ++ (y ++ (b!"endobj" ++ u))))))) ++ R) h2 (by simp [h3])
      simpa using this
    · have := h4 (eol ++ (d ++ (endMark ++ (y ++ (b!"endobj" ++ (u ++ R))))))
      simpa using this

theorem mapStrD_get (g : Bytes → Bytes) (k : Bytes) : ∀ D : Dict, Assoc.get? (mapStrD g D) k = (Assoc.get? D k).map (mapStr g)
  | [] => rfl
  | (k', v) :: D => by
    rw [mapStrD, Assoc.get?, Assoc.get?]
    split
    · rfl
    · exact mapStrD_get g k D

theorem Spec.Reading.dict {rd : Reading} {a o : IndObj} (h : rd.rel a o) {d : Dict} (hd : a.value = .dict d) :
    ∃ d' : Dict, o.value = .dict d' ∧ ∀ k, (d.get? k = none ↔ d'.get? k = none) ∧ ∀ b, d.get? k = some (.name b) ↔ d'.get? k = some (.name b) := by
  rcases (rd.same h).2.2 with e | ⟨g, e⟩
  · exact ⟨d, by rw [← e, hd], fun k => ⟨Iff.rfl, fun b => Iff.rfl⟩⟩
  · rw [hd] at e
    cases ho : o.value with
    | dict d' =>
      rw [ho] at e
      simp only [mapStr] at e
      injection e with e
      refine ⟨d', rfl, fun k => ?_⟩
      have e' : d.get? k = (Assoc.get? d' k).map (mapStr g) := by rw [e]; exact mapStrD_get g k d'
      show (d.get? k = none ↔ Assoc.get? d' k = none) ∧ ∀ b, d.get? k = some (.name b) ↔ Assoc.get? d' k = some (.name b)
      rw [e']
      cases Assoc.get? d' k with
      | none => simp
      | some v => cases v <;> simp [mapStr]
    | _ => rw [ho] at e; simp only [mapStr] at e; cases e

theorem Spec.Reading.notXref {rd : Reading} {a o : IndObj} (h : rd.rel a o) : NotXref o → NotXref a := by
  intro hx d hd ht
  obtain ⟨d', h1, h2⟩ := Reading.dict h hd
  exact hx d' h1 (((h2 _).2 _).1 ht)

/-- Scanning a file made up of objects. -/
theorem Spec.Made.scan_streams {rd : Reading} {P Q : Bytes} {ps : List Part} (hm : Made rd P ps Q) {cfg : Cfg} (hf : cfg.file = P ++ (joined ps ++ Q)) (f : Nat) {s : LS} (hs : s.xref = []) :
    ∃ objs q, findObjects cfg (fun env => resolver env (f + 1)) s = .ok (objs, { s with ps := q }) ∧ ∀ n o, objs.get? n = some o → o.isXrefStream = true →
      ∃ ps1 p ps2, ps = ps1 ++ p :: ps2 ∧ o.offset = ((P ++ joined ps1).length : Nat) ∧ ¬ NotXref p.obj := by
  obtain ⟨objs, q, h1, h2⟩ := findObjectsLoop_empty cfg f (cfg.file.length + 1) 0 [] s hs
  refine ⟨objs, q, h1, fun n o ho hX => ?_⟩
  rcases h2 n o ho with h | h
  · cases h
  · obtain ⟨qs, d, q', h0, h3, h4⟩ := h hX
    obtain ⟨-, f2, -⟩ := findObjects_found h1
    obtain ⟨pre, ds, hl, -, e, -⟩ := f2 n o ho
    rw [hf] at hl
    obtain ⟨ps1, p, ps2, e1, e2, -⟩ := hm.loose hl
    have hp : p ∈ ps := by rw [e1]; simp
    refine ⟨ps1, p, ps2, e1, by rw [e, e2], ?_⟩
    obtain ⟨a, ha, hrel⟩ := hm.pieces p hp
    obtain ⟨ds, gs, hd, w, t, r, k1, k2, k3, k4, k5, -⟩ := ha.body
    have hfile : cfg.file = pre ++ (hd ++ (w ++ (t ++ (r ++ (joined ps2 ++ Q))))) := by rw [hf, e1, e2, joined_append, joined_cons, k2]; simp
    have hdrop : cfg.file.drop pre.length = hd ++ (w ++ (t ++ (r ++ (joined ps2 ++ Q)))) := by rw [hfile, List.drop_left]
    rw [e] at h3
    obtain ⟨-, -, -, -, -, st⟩ := readObjectHeader_text k1 (k4 (joined ps2 ++ Q)) cfg.file (seek qs (pre.length : Int)) (by rw [seek_pos, hdrop])
    have hgrid := readObjectHeader_inv (grid_inv cfg.file pre.length) (grid_seek (file := cfg.file) qs (off := pre.length) (by rw [hfile]; simp))
    have hrest : rest cfg.file (readObjectHeader cfg.file (seek qs (pre.length : Int))).2 = w ++ (t ++ (r ++ (joined ps2 ++ Q))) := by
      rw [rest_eq st.pos, rest, seek_pos, hdrop, List.drop_left]
    rcases readDictionary_object hgrid k3 (k5 _) hrest h3 with rfl | hv
    · cases h4
    · exact fun hx => Reading.notXref hrel hx d hv h4

/-- Scanning a file made up of objects of which none is a cross reference stream. -/
theorem Spec.Made.scan {rd : Reading} {P Q : Bytes} {ps : List Part} (hm : Made rd P ps Q) (hx : ∀ p ∈ ps, NotXref p.obj) {cfg : Cfg} (hf : cfg.file = P ++ (joined ps ++ Q)) (f : Nat) {s : LS} (hs : s.xref = []) :
    ∃ objs q, findObjects cfg (fun env => resolver env (f + 1)) s = .ok (objs, { s with ps := q }) ∧ ∀ n o, objs.get? n = some o → o.isXrefStream = false := by
  obtain ⟨objs, q, h1, h2⟩ := hm.scan_streams hf f hs
  refine ⟨objs, q, h1, fun n o ho => ?_⟩
  cases hX : o.isXrefStream with
  | false => rfl
  | true =>
    obtain ⟨ps1, p, ps2, e, -, h⟩ := h2 n o ho hX
    exact absurd (hx p (by rw [e]; simp)) h

/-! ### Printed objects -/

theorem noOpen_nl {A : Bytes} : NoOpen (A ++ [10]) := by
  intro a c h
  rcases List.eq_nil_or_concat c with rfl | ⟨l, q, rfl⟩
  · have := (List.append_inj' h rfl).2
    simp at this
  · rw [List.concat_eq_append] at h ⊢
    have : A ++ [10] = (a ++ 37 :: l) ++ [q] := by rw [h]; simp
    have := (List.append_inj' this rfl).2
    exact ⟨10, by simp at this; simp [this], .inl rfl⟩

theorem natDigits_len {n : Nat} (h : n < 2 ^ 63) : (natDigits n).length ≤ 19 := by
  by_cases hz : n = 0
  · subst hz; decide
  · have h1 := (natDigits_length (n := n) (by omega)).1
    apply Classical.byContradiction
    intro hc
    have : 10 ^ 19 ≤ 10 ^ ((natDigits n).length - 1) := Nat.pow_le_pow_right (by decide) (by omega)
    have : (10 : Nat) ^ 19 > 2 ^ 63 := by decide
    omega

/-- A word does not run across a line break. -/
theorem lacks_nl {lit A B : Bytes} (hA : Lacks lit A) (hB : Lacks lit B) (hl : lit ≠ []) (h : 10 ∉ lit) : Lacks lit (A ++ (10 :: B)) := by
  have h1 : Lacks lit [10] := by
    intro a b e
    have : ∀ c ∈ lit, c ∈ ([10] : Bytes) := fun c hc => by rw [e]; simp [hc]
    cases lit with
    | nil => exact hl rfl
    | cons c l => exact h (by have := this c (by simp); simp at this; simp [this])
  have h2 : Lacks lit (10 :: B) := by
    intro x y e
    obtain ⟨x', -, e'⟩ := occ_after (A := [10]) h1 (by simp) (by
      intro a c hc
      have := (List.append_inj' (show [] ++ [10] = a ++ [c] from hc) rfl).2
      cases this; exact h) hl e
    exact hB _ _ e'
  intro x y e
  obtain ⟨x', -, e'⟩ := occ_right hA (by rintro b t ⟨⟩ hm; exact h (List.mem_of_mem_tail hm)) e
  exact h2 _ _ e'

theorem lacks_nil {lit : Bytes} (hl : lit ≠ []) : Lacks lit [] := by
  intro a b e
  have := congrArg List.length e
  have := List.length_pos_iff.2 hl
  simp at *
  omega

theorem Spec.Storable.raw {o : IndObj} (h : Storable o) : RawText (reread o) [] (o.toBytes ++ b!"\n") := by
  obtain ⟨n, g, v, st⟩ := o
  obtain ⟨hn, hg, hp, hw, hs⟩ := h
  dsimp only at *
  obtain ⟨n, rfl⟩ := Int.eq_ofNat_of_zero_le hn.1
  obtain ⟨g, rfl⟩ := Int.eq_ofNat_of_zero_le hg.1
  obtain ⟨ds, n1, n2, n3, n4, -⟩ := natDigits_spec n
  obtain ⟨gs, g1, g2, g3, g4, -⟩ := natDigits_spec g
  have hn' : n < 2 ^ 63 := by omega
  have hg' : g < 2 ^ 63 := by omega
  have hsp : White [32] := ⟨by simp, by decide⟩
  have hnl : Blank [10] := .ws (by decide) .nil
  have hh : Head n g (ds.map decDigit ++ ([32] ++ (gs.map decDigit ++ ([32] ++ b!"obj")))) := by
    have := Head.mk n2 n3 (by rw [n4]; exact hn') g2 g3 (by rw [g4]; exact hg') hsp hsp
    rwa [n4, g4] at this
  have hbr : Between b!"\n\n" := Break.between ⟨by decide, by decide⟩
  have hstop : ∀ x : Bytes, Stops (10 :: x) := fun x => stops_of (by decide)
  have hv : ∀ x, ¬ RefTail (10 :: x) → ObjAt v v.toBytes (10 :: x) [] := fun x hx => plain_objAt hp _ (hstop x) hx
  have href1 : ∀ r, ¬ RefTail (10 :: (b!"endobj" ++ r)) := fun r => by
    apply not_refTail_lInt
    rw [show ∀ x : Bytes, 10 :: x = [10] ++ x from fun _ => rfl, lInt_blank hnl]
    exact congrArg _ (lInt_nondigit (by decide) (by decide) (by decide) _)
  have href2 : ∀ r, ¬ RefTail (10 :: (b!"stream" ++ r)) := fun r => by
    apply not_refTail_lInt
    rw [show ∀ x : Bytes, 10 :: x = [10] ++ x from fun _ => rfl, lInt_blank hnl]
    exact congrArg _ (lInt_nondigit (by decide) (by decide) (by decide) _)
  have hne : v.toBytes ≠ [] := by
    rcases objAt_first (hv _ (href1 [])) with ⟨_, _, _, h, _⟩ | ⟨_, _, h, _⟩ <;> (rw [h]; simp)
  have hline : ∀ {A : Bytes}, NoHeader A → NoHeader (10 :: (A ++ [10])) := fun hA => noHeader_cons (by unfold IsDec; decide) (noHeader_snoc (by decide) hA)
  have hword : ∀ {c : UInt8} {A B : Bytes}, NoHeader A → NoHeader B → ¬ IsDec c → ¬ (IsWhite c ∨ c = 37) → c ∉ b!"obj" → NoHeader ((10 :: (A ++ [10])) ++ c :: B) :=
    fun hA hB h1 h2 h3 => noHeader_across (hline hA) (noOpen_nl (A := 10 :: _)) h1 h2 h3 hB
  cases st with
  | none =>
    have := RawText.value (w := [10]) (w' := [10]) hh hnl (hstop _) hne (fun r => hv _ (href1 r)) hnl (hline hw) (by
      rw [← List.append_assoc]; exact noOpen_nl) hbr
    have e : (⟨(n : Int), (g : Int), v, none⟩ : IndObj).toBytes ++ b!"\n" = (ds.map decDigit ++ ([32] ++ (gs.map decDigit ++ ([32] ++ b!"obj")))) ++ (([10] ++ (v.toBytes ++ [10])) ++ (b!"endobj" ++ b!"\n\n")) := by
      rw [IndObj.toBytes, intDigits_nat, intDigits_nat, n1, g1]; simp
    rw [e]
    exact this
  | some d =>
    obtain ⟨D, rfl, k4, k6, k7⟩ := hs d rfl
    have hfirst : ∀ r, FirstMark (d ++ [10]) r := by
      intro r d' r' e
      apply Classical.byContradiction
      intro hc
      have e : d ++ (10 :: (endMark ++ r)) = d' ++ (endMark ++ r') := by simpa using e
      obtain ⟨x, e1, e2⟩ := occ_right k7 (by rintro b t ⟨⟩; decide) e
      cases x with
      | nil => cases e2
      | cons c x => rw [e1] at hc; simp at hc
    have hchop : Chop (d ++ [10]) (withoutCR d) := by
      rw [withoutCR]
      split
      · rename_i h13
        obtain ⟨a, rfl⟩ := List.getLast?_eq_some_iff.1 h13
        simpa using Chop.crlf a
      · rename_i h13
        exact .lf d h13
    have l1 := natDigits_len hn'
    have l2 := natDigits_len hg'
    rw [n1, List.length_map] at l1
    rw [g1, List.length_map] at l2
    have := RawText.stream (w := [10]) (w' := [10]) (eol := [10]) (y := [10]) hh hnl (hstop _) hne (fun r => hv _ (href2 r)) hnl (fun r => .inl rfl) hfirst hchop hnl
      (by simp only [List.length_append, List.length_map, List.length_cons, List.length_nil]; omega)
      (by
        have h1 : NoHeader ((10 :: (d ++ [10])) ++ 101 :: (b!"ndstream" ++ [10])) := hword k6 (Lacks.noHeader (lacks_of (by decide))) (by unfold IsDec; decide) (by decide) (by decide)
        have h2 : NoHeader (b!"tream" ++ ((10 :: (d ++ [10])) ++ 101 :: (b!"ndstream" ++ [10]))) := by
          iterate 5 refine noHeader_cons (by unfold IsDec; decide) ?_
          exact h1
        have := hword (c := 115) hw h2 (by unfold IsDec; decide) (by decide) (by decide)
        simpa [endMark] using this) (by
        have := noOpen_nl (A := [10] ++ ((Obj.dict D).toBytes ++ ([10] ++ (b!"stream" ++ ([10] ++ ((d ++ [10]) ++ endMark))))))
        simpa using this) hbr
    have e : (⟨(n : Int), (g : Int), .dict D, some d⟩ : IndObj).toBytes ++ b!"\n" = (ds.map decDigit ++ ([32] ++ (gs.map decDigit ++ ([32] ++ b!"obj")))) ++
        (([10] ++ ((Obj.dict D).toBytes ++ ([10] ++ (b!"stream" ++ ([10] ++ ((d ++ [10]) ++ (endMark ++ [10]))))))) ++ (b!"endobj" ++ b!"\n\n")) := by
      rw [IndObj.toBytes, intDigits_nat, intDigits_nat, n1, g1]; simp [endMark]
    rw [e]
    exact this

theorem Spec.Reprintable.storable {o : IndObj} (h : Reprintable o) : Storable o :=
  ⟨h.number, h.generation, h.plain, h.word, fun d hd => let ⟨D, k1, _, _, _, k2⟩ := h.stream d hd; ⟨D, k1, k2⟩⟩

theorem Spec.Reprintable.raw {o : IndObj} (h : Reprintable o) : RawText (reread o) [] (o.toBytes ++ b!"\n") := h.storable.raw

theorem Spec.Reprintable.text {o : IndObj} (h : Reprintable o) (cd : Codecs) : ObjectText cd (reread o) [] (o.toBytes ++ b!"\n") := by
  refine ⟨_, h.raw, ?_⟩
  obtain ⟨n, g, v, st⟩ := o
  cases st with
  | none => exact .value
  | some d =>
    obtain ⟨D, rfl, k1, k2, k3, -⟩ := h.stream d rfl
    exact Decoded.stream (.none k1) (.none k2) k3 (by simp) (fun rs => rfl)

end Pdf
