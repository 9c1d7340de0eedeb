import Verif.Props.Load
import Verif.Props.IndObj
/-!
C98: objects that are not in the file.
-/

namespace Pdf.Props
open Pdf Spec St

section
variable {cfg : Cfg} {ord : Order} {f fx : Nat} {pw : Bytes} {s0 s1 s2 : LS} {r : Option EncErr}

/-- **C98, partial** After `Load`, a number that no cross reference section lists and that no `n g obj` in the file has is read as null. Missing:
numbers that a section lists, with the offset of another object (`C98_wrong`, `C98_false`). -/
theorem C98_partial (h : load cfg ord f fx pw s0 = .ok (r, s2)) (hs : SectionsLoaded cfg f fx s0 s1) {n : Int} (hno : s1.xref.get? n = none)
    (hm : ∀ pre ds, LooseAt cfg.file pre ds → ¬ IsInt64Of (Spec.decVal ds) n) (f' : Nat) (s : PS) :
    getObject (LS.env cfg s2) f' n s = .ok (⟨n, 0, .null, none⟩, s) := by
  obtain ⟨offs, objs, sa, sb, sp, s1', s3, h1, h2, h3, h4, h5, h6⟩ := load_stages h
  obtain rfl := sections_unique hs h2 h3
  obtain ⟨f1, f2, f3⟩ := findObjects_found h1
  have hv := visited ord objs
  have hget : ∀ n, Assoc.get? (ord.visit objs) n = objs.get? n := fun n => (Assoc.get?_perm hv.symm f3 n).symm
  obtain ⟨s3', g1, g2, -, g3, g4⟩ := repairAll_run cfg (ord.visit objs) ((hv.map _).nodup_iff.2 f3) s1'
  simp only [hget] at g3
  rw [h4] at g1
  cases g1
  have hobj : objs.get? n = none := by
    cases ho : objs.get? n with
    | none => rfl
    | some o =>
      obtain ⟨pre, ds, k1, k2, -⟩ := f2 n o ho
      exact absurd k2 (hm pre ds k1)
  have hx : s2.xref.get? n = none := (h5 n).1 (by rw [g3 n hobj, hno])
  refine C16_null _ _ _ (fun e he => ?_) s
  have he : s2.xref.get? n = some e := he
  rw [hx] at he
  cases he

/-- **C98 fails** for every file with a section that lists a number in use with the offset of another object, when no `n g obj` in the
file has the number: it is read as that object, whatever the number `m` in its header. -/
theorem C98_wrong (h : load cfg ord f fx pw s0 = .ok (r, s2)) (hs : SectionsLoaded cfg f fx s0 s1) {n : Int} {e : XrefEntry} (he : s1.xref.get? n = some e) (ht : e.typ = 1)
    (hm : ∀ pre ds, LooseAt cfg.file pre ds → ¬ IsInt64Of (Spec.decVal ds) n) {off : Nat} (hoff : e.offset = off) {m gs : List Nat} {hd w t rest : Bytes} {o : Obj} {es : List Err}
    (hin : cfg.file.drop off = hd ++ (w ++ (t ++ rest))) (hh : HeaderText m gs hd) (hw : Blank w) (hst : Stops (w ++ (t ++ rest))) (ho : ObjAt o t rest es) (hr : ¬ StreamNext rest)
    {g : Bytes → Bytes} (hg : ∀ e' b, stringDec (LS.env cfg s2) n e' b = .ok (g b)) (f' : Nat) (s : PS) :
    ∃ s', getObject (LS.env cfg s2) f' n s = .ok (⟨n, e.generation, mapStr g o, none⟩, s') := by
  obtain ⟨e', h1, h2, h3, h4⟩ := C25_unmarked h hs he hm
  have hx : InUse (LS.env cfg s2) n e' (hd ++ (w ++ (t ++ rest))) := by
    have ho' : e'.offset = (off : Int) := by rw [← hoff]; first | exact h2 | exact h2.symm
    refine ⟨h1, ?_, by rw [ho']; omega, ?_⟩
    · rw [← ht]; first | exact h4 | exact h4.symm
    · rw [ho']; exact hin
  obtain ⟨s', k1, -⟩ := C58_object hx hh hw hst ho hr (hg e') f' s
  refine ⟨s', ?_⟩
  rw [k1]
  first | rw [h3] | rw [← h3]

end

/-- A file with one object, that the table lists under the number 2, too. -/
def oneObject : Cfg := ⟨b!"1 0 obj 5 endobj xref\n1 2\n0 0 n \n0 0 n \ntrailer<</Size 3>>", Concrete.ext, some false⟩

/-- The file has no object but the one with the number 1. -/
theorem oneObject_markers {pre : Bytes} {ds : List Nat} (h : LooseAt oneObject.file pre ds) : ds = [1] := by
  obtain ⟨⟨t, e, hl⟩, -⟩ := h
  have hp : pre = [] := by
    cases pre with
    | nil => rfl
    | cons b u =>
      exfalso
      have hn : findRe objRe 0 (oneObject.file.drop 1) = none := by decide +kernel
      refine loose_re hl (findRe_none hn u t ?_)
      rw [e]
      rfl
  subst hp
  obtain ⟨hne, hd, w, gs, w', r, rfl, hw, -⟩ := hl
  have hdig : ∀ d < 10, decDigit d ≠ 32 := by decide
  have hone : ∀ d < 10, decDigit d = 49 → d = 1 := by decide
  match ds, hne with
  | [d], _ =>
    have h1 : 49 = decDigit d := (List.cons.inj e).1
    rw [hone d (hd d (by simp)) h1.symm]
  | d :: d' :: ds, _ =>
    have h1 : 32 = decDigit d' := (List.cons.inj (List.cons.inj e).2).1
    exact absurd h1.symm (hdig d' (hd d' (by simp)))

theorem not_two {ds : List Nat} (h : ds = [1]) : ¬ IsInt64Of (Spec.decVal ds) 2 := by
  subst h
  rintro ⟨-, -, k, hk⟩
  have : Spec.decVal [1] = 1 := rfl
  omega

example : ∃ r s2, load oneObject default 2 3 [] LS.init = .ok (r, s2) ∧ ∀ f s, getObject (LS.env oneObject s2) f 7 s = .ok (⟨7, 0, .null, none⟩, s) := by
  obtain ⟨r, s1, s2, h1, h2⟩ : ∃ r s1 s2, load oneObject default 2 3 [] LS.init = .ok (r, s2) ∧ SectionsLoaded oneObject 2 3 LS.init s1 := loads_of (by decide +kernel)
  refine ⟨r, s2, h1, fun f s => C98_partial h1 h2 (sections_entry h2 (x := none) (by decide +kernel)) (fun pre ds h => ?_) f s⟩
  rw [oneObject_markers h]
  rintro ⟨-, -, k, hk⟩
  have : Spec.decVal [1] = 1 := rfl
  omega

/-- **C98 fails**: the file has no object with the number 2, but it is read as the object with the number 1. -/
theorem C98_false : ∃ (cfg : Cfg) (r : Option EncErr) (s2 : LS), load cfg default 2 3 [] LS.init = .ok (r, s2) ∧ (∀ pre ds, LooseAt cfg.file pre ds → ¬ IsInt64Of (Spec.decVal ds) 2) ∧
    ∀ f s, ∃ s', getObject (LS.env cfg s2) f 2 s = .ok (⟨2, 0, .num (intNum false 5), none⟩, s') := by
  obtain ⟨r, s1, s2, h1, h2⟩ : ∃ r s1 s2, load oneObject default 2 3 [] LS.init = .ok (r, s2) ∧ SectionsLoaded oneObject 2 3 LS.init s1 := loads_of (by decide +kernel)
  have e1 := sections_entry h2 (n := 2) (x := some ⟨0, 0, 1, true, false⟩) (by decide +kernel)
  have e2 : (match load oneObject default 2 3 [] LS.init with | .ok (_, s) => some s.sh.stringFilter | _ => none) = some .none := by decide +kernel
  rw [h1] at e2
  have e2 : s2.sh.stringFilter = .none := Option.some.inj e2
  have hm : ∀ pre ds, LooseAt oneObject.file pre ds → ¬ IsInt64Of (Spec.decVal ds) 2 := fun pre ds h => not_two (oneObject_markers h)
  refine ⟨oneObject, r, s2, h1, hm, fun f s => ?_⟩
  refine C98_wrong h1 h2 e1 rfl hm (off := 0) rfl (m := [1]) (gs := [0]) (hd := b!"1 0 obj") (w := [32]) (t := [53]) (rest := oneObject.file.drop 9) (o := .num (intNum false 5)) (es := []) (g := id) rfl
    (.mk (w := []) (w1 := [32]) (w2 := [32]) .nil (by decide) (by decide) (.ws (by decide) .nil) (by decide) (by decide) (by decide) (.ws (by decide) .nil))
    (.ws (by decide) .nil) (by rintro b u ⟨⟩; decide)
    (.int (sg := []) (ds := [5]) .none (by decide) (by decide) (by decide) (by rintro b t ⟨⟩; decide) (by rintro u ⟨⟩) (not_refTail_of (by decide)))
    ?_ ?_ f s
  · rw [streamNext_iff]
    decide
  · intro e' b
    show decrypt _ _ (newDecryptor _ (if e'.isEncrypted = true then s2.sh.stringFilter else .none) _ _) b = _
    rw [e2]
    split <;> rfl

end Pdf.Props
