import Verif.Lemmas.CursorObj
import Verif.Lemmas.Assoc
import Verif.Spec.Crypt
/-!
Reading with a decryption that always succeeds is reading without one and then decrypting every string.
-/

namespace Pdf
open Spec

theorem mapStrL_eq (g : Bytes → Bytes) (l : List Obj) : mapStrL g l = l.map (mapStr g) := by
  induction l with
  | nil => rfl
  | cons o t ih => rw [mapStrL, ih]; rfl

theorem mapStrD_eq (g : Bytes → Bytes) (l : List (Bytes × Obj)) : mapStrD g l = l.map fun p => (p.1, mapStr g p.2) := by
  induction l with
  | nil => rfl
  | cons o t ih => obtain ⟨k, o⟩ := o; rw [mapStrD, ih]; rfl

theorem mapStrD_set (g : Bytes → Bytes) (d : Dict) (k : Bytes) (v : Obj) :
    mapStrD g (d.set k v) = Assoc.set (mapStrD g d) k (mapStr g v) := by
  induction d with
  | nil => rfl
  | cons p t ih =>
    obtain ⟨a, b⟩ := p
    rw [Assoc.set, mapStrD, Assoc.set]
    split
    · rfl
    · rw [mapStrD, ih]

theorem get?_mapStrD (g : Bytes → Bytes) (d : Dict) (k : Bytes) :
    Assoc.get? (mapStrD g d) k = (Assoc.get? d k).map (mapStr g) := by
  induction d with
  | nil => rfl
  | cons p t ih =>
    obtain ⟨a, b⟩ := p
    rw [mapStrD, Assoc.get?_cons, Assoc.get?_cons]
    split
    · rfl
    · exact ih

mutual
theorem mapStr_comp {g h : Bytes → Bytes} {k : Bytes → Bytes} (hk : ∀ b, g (h b) = k b) : ∀ o, mapStr g (mapStr h o) = mapStr k o
  | .str b => by simp only [mapStr, hk]
  | .arr l => by simp only [mapStr, mapStrL_comp hk l]
  | .dict l => by simp only [mapStr, mapStrD_comp hk l]
  | .kw b => rfl
  | .num x => rfl
  | .name b => rfl
  | .ref n m => rfl
theorem mapStrL_comp {g h : Bytes → Bytes} {k : Bytes → Bytes} (hk : ∀ b, g (h b) = k b) : ∀ l, mapStrL g (mapStrL h l) = mapStrL k l
  | [] => rfl
  | o :: t => by simp only [mapStrL, mapStr_comp hk o, mapStrL_comp hk t]
theorem mapStrD_comp {g h : Bytes → Bytes} {k : Bytes → Bytes} (hk : ∀ b, g (h b) = k b) : ∀ l, mapStrD g (mapStrD h l) = mapStrD k l
  | [] => rfl
  | (_, o) :: t => by simp only [mapStrD, mapStr_comp hk o, mapStrD_comp hk t]
end

mutual
theorem mapStr_id {g : Bytes → Bytes} (hg : ∀ b, g b = b) : ∀ o, mapStr g o = o
  | .str b => by simp only [mapStr, hg]
  | .arr l => by simp only [mapStr, mapStrL_id hg l]
  | .dict l => by simp only [mapStr, mapStrD_id hg l]
  | .kw b => rfl
  | .num x => rfl
  | .name b => rfl
  | .ref n m => rfl
theorem mapStrL_id {g : Bytes → Bytes} (hg : ∀ b, g b = b) : ∀ l, mapStrL g l = l
  | [] => rfl
  | o :: t => by simp only [mapStrL, mapStr_id hg o, mapStrL_id hg t]
theorem mapStrD_id {g : Bytes → Bytes} (hg : ∀ b, g b = b) : ∀ l, mapStrD g l = l
  | [] => rfl
  | (_, o) :: t => by simp only [mapStrD, mapStr_id hg o, mapStrD_id hg t]
end

/-- Change of the value of a result. -/
def rmap {α β : Type} (g : α → β) (x : Res (LR α)) : Res (LR β) := x >>= fun q => .ok ⟨g q.val, q.n, q.errs⟩

theorem rmap_lthen {α α' β β' : Type} (l : Bytes) (x : Res (LR α)) (g : α → Bytes → Res (LR β)) (h : β → β')
    (k : α → α') (g' : α' → Bytes → Res (LR β')) (hg : ∀ a t, g' (k a) t = rmap h (g a t)) :
    lthen l (rmap k x) g' = rmap h (lthen l x g) := by
  cases x with
  | ok r =>
    simp only [lthen, rmap, Res.bind_ok, hg]
    cases g r.val (l.drop r.n) <;> rfl
  | panic w => rfl
  | oof => rfl

theorem rmap_lskip {β β' : Type} (n : Nat) (l : Bytes) (g : Bytes → Res (LR β)) (h : β → β') (g' : Bytes → Res (LR β'))
    (hg : ∀ t, g' t = rmap h (g t)) : lskip n l g' = rmap h (lskip n l g) := by
  simp only [lskip, lthen, rmap, Res.bind_ok, hg]
  cases g (l.drop n) <;> rfl

theorem rmap_ite {α β : Type} {c : Prop} [Decidable c] {h : α → β} {x y : Res (LR α)} {x' y' : Res (LR β)} (h1 : x' = rmap h x) (h2 : y' = rmap h y) :
    (if c then x' else y') = rmap h (if c then x else y) := by
  by_cases hc : c
  · rw [if_pos hc, if_pos hc, h1]
  · rw [if_neg hc, if_neg hc, h2]

/-- the effect on the result of `ReadObject` -/
def mapRes (g : Bytes → Bytes) (p : Obj × RErr) : Obj × RErr := (mapStr g p.1, p.2)

theorem lObj_mapStr {dec : Bytes → Res Bytes} {g : Bytes → Bytes} (hdec : ∀ b, dec b = .ok (g b)) : ∀ f,
    (∀ l, lObj dec f l = rmap (mapRes g) (lObj noDec f l)) ∧
    (∀ l acc, lArr dec f l (mapStrL g acc) = rmap (mapStrL g) (lArr noDec f l acc)) ∧
    (∀ l d, lDict dec f l (mapStrD g d) = rmap (mapStrD g) (lDict noDec f l d)) := by
  intro f
  induction f with
  | zero => exact ⟨fun l => rfl, fun l a => rfl, fun l a => rfl⟩
  | succ f ih =>
    obtain ⟨ihO, ihA, ihD⟩ := ih
    refine ⟨?_, ?_, ?_⟩
    · intro l
      rw [lObj, lObj]
      refine rmap_lskip _ _ _ _ _ fun t => ?_
      cases t with
      | nil => rfl
      | cons b0 t =>
        have hD : ∀ r, lDec dec r = rmap (mapRes g) (lDec noDec r) := by
          intro r
          rw [lDec, lDec, hdec]; rfl
        refine rmap_ite rfl (rmap_ite ?_ (rmap_ite rfl (rmap_ite (hD _) (rmap_ite rfl (rmap_ite ?_ (rmap_ite rfl (rmap_ite (hD _)
          (rmap_ite rfl (rmap_ite ?_ rfl)))))))))
        · refine rmap_lskip _ _ _ _ _ fun u => ?_
          rw [show lArr dec f u [] = rmap (mapStrL g) (lArr noDec f u []) from ihA u []]
          exact rmap_lthen _ _ _ _ _ _ fun a t => rfl
        · refine rmap_lskip _ _ _ _ _ fun u => ?_
          rw [show lDict dec f u [] = rmap (mapStrD g) (lDict noDec f u []) from ihD u []]
          exact rmap_lthen _ _ _ _ _ _ fun a t => rfl
        · rw [rmap, Res.bind_ok, mapRes]
          have : ∀ t, mapStr g (lNumOrRef t).val = (lNumOrRef t).val := by
            intro t
            rw [lNumOrRef]
            dsimp only
            split
            · rfl
            · split <;> rfl
          rw [this]
    · intro l acc
      rw [lArr, lArr, ihO l]
      refine rmap_lthen _ _ _ _ _ _ fun a t => ?_
      refine rmap_ite rfl (rmap_ite rfl ?_)
      · rw [← ihA]
        congr 1
        rw [mapStrL_eq, mapStrL_eq]; simp [mapRes]
    · intro l d
      rw [lDict, lDict, ihO l]
      refine rmap_lthen _ _ _ _ _ _ fun a t => ?_
      refine rmap_ite rfl (rmap_ite rfl ?_)
      · have hother : lthen t (lret () [.invalidDictionaryKeyType]) (fun _ t => lDict dec f t (mapStrD g d)) =
            rmap (mapStrD g) (lthen t (lret () [.invalidDictionaryKeyType]) fun _ t => lDict noDec f t d) := by
          have := rmap_lthen (k := id) t (lret () [.invalidDictionaryKeyType]) (fun _ t => lDict noDec f t d) (mapStrD g)
            (fun _ t => lDict dec f t (mapStrD g d)) (fun _ t => ihD t d)
          rw [← this]
          rfl
        obtain ⟨o, e⟩ := a
        cases o with
        | name key =>
          simp only [mapRes, mapStr]
          rw [ihO t]
          refine rmap_lthen _ _ _ _ _ _ fun v u => ?_
          refine rmap_ite rfl ?_
          rw [← ihD, mapStrD_set]; rfl
        | _ => exact hother

end Pdf
