import Verif.Lemmas.Resolve
import Verif.Lemmas.Parser
import Verif.Lemmas.Assoc
import Verif.Props.Filters
import Verif.Spec.Tame
import Verif.Lemmas.Tree
import Verif.Lemmas.MapStr
import Verif.Lemmas.Crypt
/-!
Computations that return: total correctness for families indexed by the depth of calls.
-/

namespace Pdf
open Spec St

/-- The bounds on the depth of calls: of `Resolve`, of `loadXref`, and in trees. -/
structure Depth where
  f : Nat
  fx : Nat
  ft : Nat

/-- the least of the bounds -/
def Depth.lvl (i : Depth) : Nat := min i.f (min i.fx i.ft)

/-- From every state with `I` the family returns, whenever all bounds are large enough the same, a value
with `P` in a state with `I`. -/
def Runs {σ α : Type} (I : σ → Prop) (P : α → Prop) (x : Depth → St σ α) : Prop :=
  ∀ s, I s → ∃ a t, P a ∧ I t ∧ ∃ F, ∀ i : Depth, F ≤ i.lvl → x i s = .ok (a, t)

namespace Runs
variable {σ α β : Type} {I : σ → Prop} {P : α → Prop} {Q : β → Prop}

theorem pure {a : α} (h : P a) : Runs I P fun _ => (Pure.pure a : St σ α) := fun s hs => ⟨a, s, h, hs, 0, fun _ _ => rfl⟩

theorem bind {x : Depth → St σ α} {k : Depth → α → St σ β} (hx : Runs I P x) (hk : ∀ a, P a → Runs I Q fun f => k f a) : Runs I Q fun f => x f >>= k f := by
  intro s hs
  obtain ⟨a, t, ha, ht, F, hF⟩ := hx s hs
  obtain ⟨b, u, hb, hu, G, hG⟩ := hk a ha t ht
  refine ⟨b, u, hb, hu, max F G, fun f hf => ?_⟩
  show (x f >>= k f) s = _
  rw [bind_of_ok (hF f (by omega))]
  exact hG f (by omega)

theorem mono {P' : α → Prop} {x : Depth → St σ α} (hx : Runs I P x) (h : ∀ a, P a → P' a) : Runs I P' x := by
  intro s hs
  obtain ⟨a, t, ha, r⟩ := hx s hs
  exact ⟨a, t, h a ha, r⟩

theorem ite {c : Prop} [Decidable c] {x y : Depth → St σ α} (hx : c → Runs I P x) (hy : ¬ c → Runs I P y) : Runs I P fun f => if c then x f else y f := by
  by_cases hc : c
  · simp only [if_pos hc]; exact hx hc
  · simp only [if_neg hc]; exact hy hc

theorem ofFun {g : σ → α × σ} (h : ∀ s, I s → P (g s).1 ∧ I (g s).2) : Runs I P fun _ => St.ofFun g :=
  fun s hs => ⟨_, _, (h s hs).1, (h s hs).2, 0, fun _ _ => rfl⟩

theorem ofRes {r : Res α} (h : ∃ a, r = .ok a ∧ P a) : Runs I P fun _ => (St.ofRes r : St σ α) := by
  obtain ⟨a, rfl, ha⟩ := h
  exact fun s hs => ⟨a, s, ha, hs, 0, fun _ _ => rfl⟩

/-- a family that does not depend on the depth -/
theorem const {y : Depth → St σ α} (h : ∀ s, I s → ∃ a t, (∀ i, y i s = .ok (a, t)) ∧ P a ∧ I t) : Runs I P y := by
  intro s hs
  obtain ⟨a, t, h1, h2, h3⟩ := h s hs
  exact ⟨a, t, h2, h3, 0, fun _ _ => h1 _⟩

/-- deeper -/
theorem deeper {x : Depth → St σ α} (hx : Runs I P x) {g : Depth → Depth} (hg : ∀ i, i.lvl ≤ (g i).lvl) : Runs I P fun i => x (g i) := by
  intro s hs
  obtain ⟨a, t, ha, ht, F, hF⟩ := hx s hs
  exact ⟨a, t, ha, ht, F, fun i hi => hF _ (by have := hg i; omega)⟩

/-- one level less deep -/
theorem unshift {x : Depth → St σ α} (g h : Depth → Depth) (hg : ∀ i, 1 ≤ i.lvl → g (h i) = i) (hh : ∀ i, i.lvl ≤ (h i).lvl + 1) (hx : Runs I P fun i => x (g i)) : Runs I P x := by
  intro s hs
  obtain ⟨a, t, ha, ht, F, hF⟩ := hx s hs
  refine ⟨a, t, ha, ht, F + 1, fun i hi => ?_⟩
  have := hh i
  have := hF (h i) (by omega)
  simp only [hg i (show 1 ≤ i.lvl by omega)] at this
  exact this

theorem unshift_f {x : Depth → St σ α} (hx : Runs I P fun i => x ⟨i.f + 1, i.fx, i.ft⟩) : Runs I P x :=
  unshift (fun i => ⟨i.f + 1, i.fx, i.ft⟩) (fun i => ⟨i.f - 1, i.fx, i.ft⟩)
    (fun i hi => by obtain ⟨a, b, c⟩ := i; simp only [Depth.lvl] at hi; simp only [Depth.mk.injEq, and_self, and_true]; omega) (fun i => by simp only [Depth.lvl]; omega) hx

theorem unshift_fx {x : Depth → St σ α} (hx : Runs I P fun i => x ⟨i.f, i.fx + 1, i.ft⟩) : Runs I P x :=
  unshift (fun i => ⟨i.f, i.fx + 1, i.ft⟩) (fun i => ⟨i.f, i.fx - 1, i.ft⟩)
    (fun i hi => by obtain ⟨a, b, c⟩ := i; simp only [Depth.lvl] at hi; simp only [Depth.mk.injEq, and_self, and_true, true_and]; omega) (fun i => by simp only [Depth.lvl]; omega) hx

theorem unshift_ft {x : Depth → St σ α} (hx : Runs I P fun i => x ⟨i.f, i.fx, i.ft + 1⟩) : Runs I P x :=
  unshift (fun i => ⟨i.f, i.fx, i.ft + 1⟩) (fun i => ⟨i.f, i.fx, i.ft - 1⟩)
    (fun i hi => by obtain ⟨a, b, c⟩ := i; simp only [Depth.lvl] at hi; simp only [Depth.mk.injEq, and_self, and_true, true_and]; omega) (fun i => by simp only [Depth.lvl]; omega) hx

end Runs

/-- computations of the reader, whose state does not matter -/
abbrev RunsM {α : Type} (P : α → Prop) (x : Depth → M α) : Prop := Runs (fun _ : PS => True) P x

/-! ### Values read from a tame file -/

/-- every dictionary inside has `T` -/
def AllDicts (T : Dict → Prop) (o : Obj) : Prop := ∀ d ∈ dictsIn o, T d
/-- tame, and if `U`, without encryption -/
structure TameFor (U : Prop) (d : Dict) : Prop extends TameDict d where
  encrypt : U → d.get? b!"Encrypt" = none
/-- every dictionary that is read is tame, and if `U`, without encryption -/
def TameFile (U : Prop) (file : Bytes) : Prop := ∀ s d err s', readObj file noDec s = .ok ((.dict d, err), s') → TameFor U d
/-- every dictionary inside is tame -/
abbrev TameObj (U : Prop) (o : Obj) : Prop := AllDicts (TameFor U) o

theorem Spec.Tame.file {file : Bytes} (h : Tame file) : TameFile (Unencrypted file) file :=
  fun s d err s' hr => ⟨h s d err s' hr, fun hu => hu s d err s' hr⟩

variable {U : Prop}

theorem AllDicts.null {T : Dict → Prop} : AllDicts T .null := by intro d hd; cases hd

theorem AllDicts.dict {T : Dict → Prop} {d : Dict} (h : AllDicts T (.dict d)) : T d := h d (by rw [dictsIn]; exact List.mem_cons_self)

theorem mem_dictsInList {l : List Obj} {d : Dict} : d ∈ dictsInList l ↔ ∃ o ∈ l, d ∈ dictsIn o := by
  induction l with
  | nil => simp [dictsInList]
  | cons o t ih => simp [dictsInList, ih]

theorem mem_dictsInValues {l : List (Bytes × Obj)} {d : Dict} : d ∈ dictsInValues l ↔ ∃ p ∈ l, d ∈ dictsIn p.2 := by
  induction l with
  | nil => simp [dictsInValues]
  | cons o t ih => obtain ⟨k, o⟩ := o; simp [dictsInValues, ih]

theorem AllDicts.arr {T : Dict → Prop} {l : List Obj} (h : AllDicts T (.arr l)) : ∀ o ∈ l, AllDicts T o := by
  intro o ho d hd
  refine h d ?_
  rw [dictsIn]
  exact mem_dictsInList.2 ⟨o, ho, hd⟩

theorem AllDicts.ofArr {T : Dict → Prop} {l : List Obj} (h : ∀ o ∈ l, AllDicts T o) : AllDicts T (.arr l) := by
  intro d hd
  rw [dictsIn] at hd
  obtain ⟨o, ho, hd⟩ := mem_dictsInList.1 hd
  exact h o ho d hd

theorem AllDicts.value {T : Dict → Prop} {d : Dict} (h : AllDicts T (.dict d)) {k : Bytes} {o : Obj} (ho : d.get? k = some o) : AllDicts T o := by
  intro e he
  refine h e ?_
  rw [dictsIn]
  exact List.mem_cons_of_mem _ (mem_dictsInValues.2 ⟨_, Assoc.get?_some_mem ho, he⟩)

theorem AllDicts.ofDict {T : Dict → Prop} {d : Dict} (hd : T d) (h : ∀ p ∈ d, AllDicts T p.2) : AllDicts T (.dict d) := by
  intro e he
  rw [dictsIn] at he
  rcases List.mem_cons.1 he with rfl | he
  · exact hd
  · obtain ⟨p, hp, he⟩ := mem_dictsInValues.1 he
    exact h p hp e he

theorem mem_set {d : Dict} {k : Bytes} {v : Obj} {p : Bytes × Obj} (h : p ∈ d.set k v) : p ∈ d ∨ p.2 = v := by
  induction d with
  | nil => simp [Assoc.set] at h; right; rw [h]
  | cons q t ih =>
    obtain ⟨k', v'⟩ := q
    rw [Assoc.set] at h
    split at h
    · rcases List.mem_cons.1 h with rfl | h
      · right; rfl
      · left; exact List.mem_cons_of_mem _ h
    · rcases List.mem_cons.1 h with rfl | h
      · left; exact List.mem_cons_self
      · rcases ih h with h | h
        · left; exact List.mem_cons_of_mem _ h
        · right; exact h

/-- a number or a reference has no dictionary inside -/
theorem lNumOrRef_dicts (t : Bytes) : dictsIn (lNumOrRef t).val = [] := by
  rw [lNumOrRef]
  dsimp only
  split
  · rfl
  · split <;> rfl

theorem lDec_dicts {dec : Bytes → Res Bytes} {r : LR Bytes} {q : LR (Obj × RErr)} (h : lDec dec r = .ok q) : dictsIn q.val.1 = [] := by
  rw [lDec] at h
  cases hd : dec r.val with
  | ok d => rw [hd] at h; injection h with h; rw [← h]; rfl
  | panic w => rw [hd] at h; cases h
  | oof => rw [hd] at h; cases h

theorem TameObj.nil {o : Obj} (h : dictsIn o = []) : TameObj U o := by intro d hd; rw [h] at hd; cases hd

theorem tame_lObj {file : Bytes} (h : TameFile U file) : ∀ f,
    (∀ p q, lObj noDec f (file.drop p) = .ok q → TameObj U q.val.1) ∧
    (∀ p acc q, (∀ o ∈ acc, TameObj U o) → lArr noDec f (file.drop p) acc = .ok q → ∀ o ∈ q.val, TameObj U o) ∧
    (∀ p (d : Dict) q, (∀ o ∈ d, TameObj U o.2) → lDict noDec f (file.drop p) d = .ok q → ∀ o ∈ q.val, TameObj U o.2) := by
  intro f
  induction f with
  | zero => exact ⟨fun _ _ h => (by cases h), fun _ _ _ _ h => (by cases h), fun _ _ _ _ h => (by cases h)⟩
  | succ f ih =>
    obtain ⟨ihO, ihA, ihD⟩ := ih
    refine ⟨?_, ?_, ?_⟩
    · intro p q hq
      have hdict : ∀ d, q.val.1 = .dict d → TameFor U d := by
        intro d hd
        obtain ⟨s', hs, -, -⟩ := readObj_of_lObj noDec_ne (file := file) (s := ⟨p, p, false, []⟩) rfl hq
        refine h ⟨p, p, false, []⟩ d q.val.2 s' ?_
        rw [hs, ← hd]
      rw [lObj] at hq
      obtain ⟨r, hr, rfl⟩ := lskip_inv hq
      rw [List.drop_drop] at hr
      generalize p + skipWs false (file.drop p) = k at hr
      cases hl : file.drop k with
      | nil => rw [hl] at hr; injection hr with hr; rw [← hr]; exact AllDicts.null
      | cons b t =>
        rw [hl] at hr
        simp only at hr
        split at hr
        · injection hr with hr; rw [← hr]; exact TameObj.nil rfl
        split at hr
        · obtain ⟨p', h1, h2⟩ := lskip_inv hr
          rw [← hl, List.drop_drop] at h1
          obtain ⟨r', p'', h3, h4, h5⟩ := lthen_inv h1
          injection h4 with h4
          rw [h2, h5, ← h4]
          exact AllDicts.ofArr (ihA _ _ _ (by simp) h3)
        split at hr
        · injection hr with hr; rw [← hr]; exact TameObj.nil rfl
        split at hr
        · exact TameObj.nil (lDec_dicts (q := r) hr)
        split at hr
        · injection hr with hr; rw [← hr]; exact TameObj.nil rfl
        split at hr
        · obtain ⟨p', h1, h2⟩ := lskip_inv hr
          rw [← hl, List.drop_drop] at h1
          obtain ⟨r', p'', h3, h4, h5⟩ := lthen_inv h1
          injection h4 with h4
          have hv : r.val.1 = .dict r'.val := by rw [h2, h5, ← h4]
          show TameObj U r.val.1
          rw [hv]
          exact AllDicts.ofDict (hdict _ hv) (ihD _ _ _ (by simp) h3)
        split at hr
        · injection hr with hr; rw [← hr]; exact TameObj.nil rfl
        split at hr
        · exact TameObj.nil (lDec_dicts (q := r) hr)
        split at hr
        · injection hr with hr; rw [← hr]; exact TameObj.nil rfl
        split at hr
        · injection hr with hr; rw [← hr]; exact TameObj.nil (lNumOrRef_dicts _)
        · injection hr with hr; rw [← hr]; exact TameObj.nil rfl
    · intro p acc q hacc hq
      rw [lArr] at hq
      obtain ⟨r, p', h1, h2, rfl⟩ := lthen_inv hq
      rw [List.drop_drop] at h2
      split at h2
      · injection h2 with h2; rw [← h2]; exact hacc
      split at h2
      · injection h2 with h2; rw [← h2]; exact hacc
      · refine ihA _ _ p' ?_ h2
        intro o ho
        rcases List.mem_append.1 ho with ho | ho
        · exact hacc o ho
        · rw [List.mem_singleton.1 ho]; exact ihO _ _ h1
    · intro p d q hd hq
      rw [lDict] at hq
      obtain ⟨r, p', h1, h2, rfl⟩ := lthen_inv hq
      rw [List.drop_drop] at h2
      split at h2
      · injection h2 with h2; rw [← h2]; exact hd
      split at h2
      · injection h2 with h2; rw [← h2]; exact hd
      split at h2
      · obtain ⟨r', p'', h3, h4, rfl⟩ := lthen_inv h2
        rw [List.drop_drop] at h4
        split at h4
        · injection h4 with h4; rw [← h4]; exact hd
        · refine ihD _ _ p'' ?_ h4
          intro o ho
          rcases mem_set ho with ho | ho
          · exact hd o ho
          · rw [ho]; exact ihO _ _ h3
      · obtain ⟨r', p'', h3, h4, rfl⟩ := lthen_inv h2
        rw [List.drop_drop] at h4
        exact ihD _ _ p'' hd h4

theorem readObj_tame {file : Bytes} (h : TameFile U file) (s : PS) : ∃ v err t, readObj file noDec s = .ok ((v, err), t) ∧ TameObj U v := by
  have hg := (lObj_good noDec_ne (objFuel file)).1 (rest file s) (by have := rest_length file s; simp only [objFuel]; omega)
  have hr := (readObject_spec file noDec (objFuel file)).1 s
  cases hl : lObj noDec (objFuel file) (rest file s) with
  | oof => rw [hl] at hg; exact hg.elim
  | panic w => rw [hl] at hg; obtain ⟨b, hb⟩ := hg; cases hb
  | ok q =>
    rw [hl] at hr
    have ht := (tame_lObj h _).1 _ _ hl
    rw [readObj]
    generalize readObject file noDec (objFuel file) s = x at *
    match x, hr with
    | .ok (a, s'), ⟨h1, h2⟩ => exact ⟨a.1, a.2, s', rfl, by rw [show a = q.val from h1]; exact ht⟩

theorem tame_nil : TameFor U [] := ⟨⟨fun _ _ _ h => (by cases h), fun _ _ h => (by cases h), fun _ _ h => (by cases h), fun _ h => (by cases h), by decide, fun h => absurd rfl h, fun h => absurd rfl h⟩, fun _ => rfl⟩

theorem readDictionary_tame {file : Bytes} (h : TameFile U file) (s : PS) : ∃ d t, readDictionary file noDec s = .ok (d, t) ∧ TameObj U (.dict d) := by
  rw [readDictionary]
  cases hh : readDictHead file s with
  | mk b s1 =>
  cases b with
  | false => exact ⟨[], s1, rfl, AllDicts.ofDict tame_nil (by simp)⟩
  | true =>
    dsimp only
    obtain ⟨t, ht⟩ : ∃ t, file.drop (consumeWs file s).pos = 60 :: 60 :: t ∧ s1.pos = (consumeWs file s).pos + 2 := by
      rw [readDictHead] at hh
      generalize consumeWs file s = s0 at *
      have hb : (readN file s0 2).1 = b!"<<" := eq_of_beq (congrArg Prod.fst hh)
      have hp : (readN file s0 2).2 = s1 := congrArg Prod.snd hh
      have key : ∀ k, k ≤ 2 → (file.drop s0.pos).take k = b!"<<" → k = 2 ∧ ∃ t, file.drop s0.pos = 60 :: 60 :: t := by
        intro k hk h
        have hlen := congrArg List.length h
        simp at hlen
        have hk2 : k = 2 := by omega
        subst hk2
        refine ⟨rfl, (file.drop s0.pos).drop 2, ?_⟩
        conv => lhs; rw [← List.take_append_drop 2 (file.drop s0.pos), h]
        rfl
      rw [readN] at hb hp
      split at hb
      · rename_i hc
        rw [if_pos hc] at hp
        obtain ⟨h1, t, h2⟩ := key _ (Nat.min_le_left _ _) hb
        exact ⟨t, h2, by rw [← hp]; dsimp only; rw [h1]⟩
      · rename_i hc
        rw [if_neg hc] at hp
        split at hb
        · rename_i hc'
          rw [if_pos hc'] at hp
          obtain ⟨h1, t, h2⟩ := key _ (Nat.min_le_left _ _) hb
          exact ⟨t, h2, by rw [← hp]; dsimp only; rw [h1]⟩
        · cases hb
    have hg := (lObj_good noDec_ne (objFuel file)).2.2 (rest file s1) [] (by have := rest_length file s1; simp only [objFuel]; omega)
    have hr := (readObject_spec file noDec (objFuel file)).2.2 s1 []
    cases hl : lDict noDec (objFuel file) (rest file s1) [] with
    | oof => rw [hl] at hg; exact hg.elim
    | panic w => rw [hl] at hg; obtain ⟨b, hb⟩ := hg; cases hb
    | ok q =>
      rw [hl] at hr
      have hrest : rest file s1 = file.drop ((consumeWs file s).pos + 2) := by rw [rest, ht.2]
      have hlo : lObj noDec (objFuel file + 1) (file.drop (consumeWs file s).pos) = .ok ⟨(Obj.dict q.val, RErr.nil), 2 + (q.n + 0), q.errs ++ []⟩ := by
        rw [ht.1, lObj_dict]
        refine lskip_ok (q := ⟨(Obj.dict q.val, RErr.nil), q.n + 0, q.errs ++ []⟩) ?_
        refine lthen_ok (r := q) (q := ⟨(Obj.dict q.val, RErr.nil), 0, []⟩) ?_ rfl
        rw [← hl, hrest, ← List.drop_drop, ht.1]
      have hto := (tame_lObj h _).1 _ _ hlo
      generalize dictLoop file noDec (objFuel file) s1 [] = x at *
      match x, hr with
      | .ok (a, s'), ⟨h1, h2⟩ => exact ⟨a, s', rfl, by rw [show a = q.val from h1]; exact hto⟩

/-! ### Decryption -/

/-- keeps the number of bytes -/
def Keeps (g : Bytes → Bytes) : Prop := ∀ b, (g b).length = b.length

theorem cbcDec_length {block : Bytes → Bytes} (hb : ∀ b, (block b).length = 16) : ∀ (k : Nat) (iv data : Bytes), iv.length = 16 → data.length = 16 * k →
    (cbcDec block k iv data).length = 16 * k
  | 0, _, _, _, _ => rfl
  | k + 1, iv, data, hi, hd => by
    rw [cbcDec, List.length_append, List.length_zipWith, hb, hi, cbcDec_length hb k _ _ (by rw [List.length_take]; omega) (by rw [List.length_drop]; omega)]
    omega

theorem decrypt_keeps (ext : Ext) {verbose : Option Bool} (hv : verbose ≠ none) (d : Decryptor) (b : Bytes) :
    ∃ c, decrypt ext verbose d b = .ok c ∧ c.length = b.length := by
  cases d with
  | none => exact ⟨b, rfl, rfl⟩
  | rc4 key => exact ⟨_, rfl, rc4_length _ _⟩
  | aes key =>
    rw [decrypt]
    split
    · exact ⟨b, rfl, rfl⟩
    · split
      · cases verbose with
        | none => exact absurd rfl hv
        | some v => exact ⟨b, rfl, rfl⟩
      · rename_i h1 h2
        refine ⟨_, rfl, ?_⟩
        rw [List.length_append, List.length_take, cbcDec_length (ext.aesBlock_length key) _ _ _ (by rw [List.length_take]; omega) (by rw [List.length_drop]; omega)]
        omega

theorem decrypt_total (ext : Ext) {verbose : Option Bool} (hv : verbose ≠ none) (d : Decryptor) : ∃ g, Keeps g ∧ ∀ b, decrypt ext verbose d b = .ok (g b) := by
  refine ⟨fun b => Classical.choose (decrypt_keeps ext hv d b), fun b => ?_, fun b => ?_⟩
  · exact (Classical.choose_spec (decrypt_keeps ext hv d b)).2
  · exact (Classical.choose_spec (decrypt_keeps ext hv d b)).1

theorem mapStr_ref {g : Bytes → Bytes} {o : Obj} {n m : Int} (h : mapStr g o = .ref n m) : o = .ref n m := by
  cases o <;> simp only [mapStr] at h <;> first | exact h | cases h

theorem mapStr_num {g : Bytes → Bytes} {o : Obj} {x : F64} (h : mapStr g o = .num x) : o = .num x := by
  cases o <;> simp only [mapStr] at h <;> first | exact h | cases h

theorem refers_mapStr {g : Bytes → Bytes} {o' : Obj} {m : Int} (h : Refers o' m) : ∀ o, o' = mapStr g o → Refers o m := by
  induction h with
  | here => intro o ho; rw [mapStr_ref ho.symm]; exact .here
  | arr hm _ ih =>
    intro o ho
    cases o <;> simp only [mapStr] at ho <;> first | cases ho | skip
    rw [mapStrL_eq] at hm
    obtain ⟨o0, h0, rfl⟩ := List.mem_map.1 hm
    exact .arr h0 (ih o0 rfl)
  | dict hg _ ih =>
    intro o ho
    cases o <;> simp only [mapStr] at ho <;> first | cases ho | skip
    rw [get?_mapStrD] at hg
    obtain ⟨o0, h0, rfl⟩ := Option.map_eq_some_iff.1 hg
    exact .dict h0 (ih o0 rfl)

theorem intOr_mapStr (g : Bytes → Bytes) (d : Dict) (k : Bytes) (i : Int) : intOr (mapStrD g d) k i = intOr d k i := by
  rw [intOr, intOr, get?_mapStrD]
  cases d.get? k with
  | none => rfl
  | some o => cases o <;> rfl

theorem TameFor.mapStr {g : Bytes → Bytes} (hg : Keeps g) {d : Dict} (h : TameFor U d) : TameFor U (mapStrD g d) := by
  have inv : ∀ {k o'}, Assoc.get? (mapStrD g d) k = some o' → ∃ o, d.get? k = some o ∧ Pdf.Spec.mapStr g o = o' := by
    intro k o' ho
    rw [get?_mapStrD] at ho
    exact Option.map_eq_some_iff.1 ho
  refine ⟨⟨?_, ?_, ?_, ?_, ?_, ?_, ?_⟩, ?_⟩
  · intro k hk o' ho m hm
    obtain ⟨o, h1, h2⟩ := inv ho
    exact h.direct k hk o h1 m (refers_mapStr hm o h2.symm)
  · intro n m ho
    obtain ⟨o, h1, h2⟩ := inv ho
    exact h.kids n m (by rw [h1, mapStr_ref h2])
  · intro n m ho
    obtain ⟨o, h1, h2⟩ := inv ho
    exact h.width n m (by rw [h1, mapStr_ref h2])
  · intro l ho o' hm
    obtain ⟨o, h1, h2⟩ := inv ho
    cases o <;> simp only [Spec.mapStr] at h2 <;> first | cases h2 | skip
    rw [mapStrL_eq, ← List.map_take] at hm
    obtain ⟨o0, h0, rfl⟩ := List.mem_map.1 hm
    obtain ⟨h3, h4⟩ := h.widths _ h1 o0 h0
    exact ⟨fun n m e => h3 n m (mapStr_ref e), fun x e => h4 x (mapStr_num e)⟩
  · simp only [intOr_mapStr]
    exact h.predictor
  · intro hf o' ho
    obtain ⟨o, h1, rfl⟩ := inv ho
    have hf' : d.get? b!"Filter" ≠ none := fun e => hf (by rw [get?_mapStrD, e]; rfl)
    obtain ⟨h3, h4⟩ := h.user hf' o h1
    refine ⟨fun n m e => h3 n m (mapStr_ref e), fun b e => ?_⟩
    cases o <;> simp only [Spec.mapStr] at e <;> cases e
    rw [hg]
    exact h4 _ rfl
  · intro hf o' ho
    obtain ⟨o, h1, rfl⟩ := inv ho
    have hf' : d.get? b!"CFM" ≠ none := fun e => hf (by rw [get?_mapStrD, e]; rfl)
    obtain ⟨h3, h4⟩ := h.method hf' o h1
    exact ⟨fun n m e => h3 n m (mapStr_ref e), fun x e => h4 x (mapStr_num e)⟩
  · intro hu
    rw [get?_mapStrD, h.encrypt hu]; rfl

mutual
theorem dictsIn_mapStr (g : Bytes → Bytes) : ∀ (o : Obj) (d : Dict), d ∈ dictsIn (mapStr g o) → ∃ e ∈ dictsIn o, d = mapStrD g e
  | .arr l, d, h => by
    rw [mapStr, dictsIn] at h
    rw [dictsIn]
    exact dictsInList_mapStr g l d h
  | .dict l, d, h => by
    rw [mapStr, dictsIn] at h
    rcases List.mem_cons.1 h with rfl | h
    · exact ⟨l, by rw [dictsIn]; exact List.mem_cons_self, rfl⟩
    · obtain ⟨e, h1, h2⟩ := dictsInValues_mapStr g l d h
      exact ⟨e, by rw [dictsIn]; exact List.mem_cons_of_mem _ h1, h2⟩
  | .str b, d, h => by cases h
  | .kw b, d, h => by cases h
  | .num x, d, h => by cases h
  | .name b, d, h => by cases h
  | .ref n m, d, h => by cases h
theorem dictsInList_mapStr (g : Bytes → Bytes) : ∀ (l : List Obj) (d : Dict), d ∈ dictsInList (mapStrL g l) → ∃ e ∈ dictsInList l, d = mapStrD g e
  | [], d, h => by cases h
  | o :: t, d, h => by
    rw [mapStrL, dictsInList] at h
    rw [dictsInList]
    rcases List.mem_append.1 h with h | h
    · obtain ⟨e, h1, h2⟩ := dictsIn_mapStr g o d h
      exact ⟨e, List.mem_append_left _ h1, h2⟩
    · obtain ⟨e, h1, h2⟩ := dictsInList_mapStr g t d h
      exact ⟨e, List.mem_append_right _ h1, h2⟩
theorem dictsInValues_mapStr (g : Bytes → Bytes) : ∀ (l : List (Bytes × Obj)) (d : Dict), d ∈ dictsInValues (mapStrD g l) → ∃ e ∈ dictsInValues l, d = mapStrD g e
  | [], d, h => by cases h
  | (k, o) :: t, d, h => by
    rw [mapStrD, dictsInValues] at h
    rw [dictsInValues]
    rcases List.mem_append.1 h with h | h
    · obtain ⟨e, h1, h2⟩ := dictsIn_mapStr g o d h
      exact ⟨e, List.mem_append_left _ h1, h2⟩
    · obtain ⟨e, h1, h2⟩ := dictsInValues_mapStr g t d h
      exact ⟨e, List.mem_append_right _ h1, h2⟩
end

theorem TameObj.mapStr {g : Bytes → Bytes} (hg : Keeps g) {o : Obj} (h : TameObj U o) : TameObj U (mapStr g o) := by
  intro d hd
  obtain ⟨e, h1, rfl⟩ := dictsIn_mapStr g o d hd
  exact (h e h1).mapStr hg

theorem readObj_dec {file : Bytes} (h : TameFile U file) {dec : Bytes → Res Bytes} {g : Bytes → Bytes} (hg : Keeps g) (hd : ∀ b, dec b = .ok (g b)) (s : PS) :
    ∃ v err t, readObj file dec s = .ok ((v, err), t) ∧ TameObj U v := by
  obtain ⟨v, err, t, h1, h2⟩ := readObj_tame h s
  have hn := (readObject_spec file noDec (objFuel file)).1 s
  have hr := (readObject_spec file dec (objFuel file)).1 s
  rw [(lObj_mapStr hd _).1] at hr
  rw [show readObject file noDec (objFuel file) s = _ from h1] at hn
  cases hl : lObj noDec (objFuel file) (rest file s) with
  | oof => rw [hl] at hn; cases hn
  | panic w => rw [hl] at hn; cases hn
  | ok q =>
    rw [hl] at hr hn
    have hq : q.val = (v, err) := hn.1.symm
    rw [readObj]
    generalize readObject file dec (objFuel file) s = x at *
    match x, hr with
    | .ok (a, s'), ⟨h3, h4⟩ =>
      refine ⟨a.1, a.2, s', rfl, ?_⟩
      rw [show a = mapRes g q.val from h3, hq]
      exact h2.mapStr hg

/-! ### Getters -/

theorem toInt_bounds (x : F64) : -9223372036854775808 ≤ x.toInt ∧ x.toInt < 9223372036854775808 := by
  unfold F64.toInt
  split
  · dsimp only
    split
    · assumption
    · decide
  · decide
  · decide

/-- an indirect object whose dictionaries have `T` and whose stream has `S` -/
def IndWith (T : Dict → Prop) (S : Bytes → Prop) (o : IndObj) : Prop := AllDicts T o.value ∧ ∀ d, o.stream = some d → S d
/-- an indirect object with a tame value and a stream with `S` -/
abbrev TameInd (U : Prop) (S : Bytes → Prop) (o : IndObj) : Prop := IndWith (TameFor U) S o

section
variable {rs : Depth → Resolver} {T : Dict → Prop} {S : Bytes → Prop} (h : ∀ n, RunsM (IndWith T S) fun f => rs f n)
include h

theorem deref_runs {o : Obj} (ho : AllDicts T o) : RunsM (AllDicts T) fun f => deref (rs f) o := by
  cases o with
  | ref n g => exact (h n).bind fun i hi => Runs.pure hi.1
  | _ => exact Runs.pure ho

theorem Dict.getObject_runs {d : Dict} (hd : AllDicts T (.dict d)) (k : Bytes) : RunsM (fun o => ∀ v, o = some v → AllDicts T v) fun f => Dict.getObject (rs f) d k := by
  simp only [Dict.getObject]
  cases ho : d.get? k with
  | none => exact Runs.pure (by rintro v ⟨⟩)
  | some o => exact (deref_runs h (hd.value ho)).bind fun v hv => Runs.pure (by rintro w ⟨⟩; exact hv)

theorem Arr.getObject_runs {l : List Obj} (hl : ∀ o ∈ l, AllDicts T o) (i : Int) : RunsM (fun o => ∀ v, o = some v → AllDicts T v) fun f => Arr.getObject (rs f) l i := by
  simp only [Arr.getObject]
  refine Runs.ite (fun _ => Runs.pure (by rintro v ⟨⟩)) fun _ => ?_
  cases ho : l[i.toNat]? with
  | none => exact Runs.pure (by rintro v ⟨⟩)
  | some o => exact (deref_runs h (hl o (List.mem_of_getElem? ho))).bind fun v hv => Runs.pure (by rintro w ⟨⟩; exact hv)

theorem Dict.getArray_runs {d : Dict} (hd : AllDicts T (.dict d)) (k : Bytes) : RunsM (fun o => ∀ l, o = some l → ∀ v ∈ l, AllDicts T v) fun f => Dict.getArray (rs f) d k := by
  refine (Dict.getObject_runs h hd k).bind fun o ho => Runs.pure ?_
  rintro l hl
  cases o with
  | none => cases hl
  | some v =>
    cases v with
    | arr l' => cases hl; exact (ho _ rfl).arr
    | _ => cases hl

theorem Dict.getDict_runs {d : Dict} (hd : AllDicts T (.dict d)) (k : Bytes) : RunsM (fun o => ∀ l, o = some l → AllDicts T (.dict l)) fun f => Dict.getDict (rs f) d k := by
  refine (Dict.getObject_runs h hd k).bind fun o ho => Runs.pure ?_
  rintro l hl
  cases o with
  | none => cases hl
  | some v =>
    cases v with
    | dict l' => cases hl; exact ho _ rfl
    | _ => cases hl

theorem Arr.getDict_runs {l : List Obj} (hl : ∀ o ∈ l, AllDicts T o) (i : Int) : RunsM (fun o => ∀ l, o = some l → AllDicts T (.dict l)) fun f => Arr.getDict (rs f) l i := by
  refine (Arr.getObject_runs h hl i).bind fun o ho => Runs.pure ?_
  rintro l hl
  cases o with
  | none => cases hl
  | some v =>
    cases v with
    | dict l' => cases hl; exact ho _ rfl
    | _ => cases hl

theorem Dict.getName_runs {d : Dict} (hd : AllDicts T (.dict d)) (k : Bytes) : RunsM (fun _ => True) fun f => Dict.getName (rs f) d k :=
  (Dict.getObject_runs h hd k).bind fun _ _ => Runs.pure trivial
theorem Dict.getString_runs {d : Dict} (hd : AllDicts T (.dict d)) (k : Bytes) : RunsM (fun _ => True) fun f => Dict.getString (rs f) d k :=
  (Dict.getObject_runs h hd k).bind fun _ _ => Runs.pure trivial
theorem Dict.getNumber_runs {d : Dict} (hd : AllDicts T (.dict d)) (k : Bytes) : RunsM (fun _ => True) fun f => Dict.getNumber (rs f) d k :=
  (Dict.getObject_runs h hd k).bind fun _ _ => Runs.pure trivial
theorem Dict.getInt_runs {d : Dict} (hd : AllDicts T (.dict d)) (k : Bytes) :
    RunsM (fun o => ∀ p, o = some p → -9223372036854775808 ≤ p ∧ p < 9223372036854775808) fun f => Dict.getInt (rs f) d k := by
  refine (Dict.getNumber_runs h hd k).bind fun o _ => Runs.pure ?_
  rintro p hp
  cases o with
  | none => cases hp
  | some x => cases hp; exact toInt_bounds x
theorem Arr.getString_runs {l : List Obj} (hl : ∀ o ∈ l, AllDicts T o) (i : Int) : RunsM (fun _ => True) fun f => Arr.getString (rs f) l i :=
  (Arr.getObject_runs h hl i).bind fun _ _ => Runs.pure trivial
theorem Arr.getNumber_runs {l : List Obj} (hl : ∀ o ∈ l, AllDicts T o) (i : Int) : RunsM (fun _ => True) fun f => Arr.getNumber (rs f) l i :=
  (Arr.getObject_runs h hl i).bind fun _ _ => Runs.pure trivial
theorem Arr.getInt_runs {l : List Obj} (hl : ∀ o ∈ l, AllDicts T o) (i : Int) : RunsM (fun _ => True) fun f => Arr.getInt (rs f) l i :=
  (Arr.getNumber_runs h hl i).bind fun _ _ => Runs.pure trivial

theorem Dict.getStream_runs (d : Dict) (k : Bytes) : RunsM (fun o => ∀ c, o = some (some c) → S c) fun f => Dict.getStream (rs f) d k := by
  simp only [Dict.getStream]
  cases ho : d.get? k with
  | none => exact Runs.pure (by rintro v ⟨⟩)
  | some o =>
    cases o with
    | ref n g => exact (h n).bind fun i hi => Runs.pure (by intro c hc; exact hi.2 c (Option.some.inj hc))
    | _ => exact Runs.pure (by rintro v ⟨⟩)

theorem Arr.getStream_runs (l : List Obj) (i : Int) : RunsM (fun o => ∀ c, o = some (some c) → S c) fun f => Arr.getStream (rs f) l i := by
  simp only [Arr.getStream]
  refine Runs.ite (fun _ => Runs.pure (by rintro v ⟨⟩)) fun _ => ?_
  cases ho : l[i.toNat]? with
  | none => exact Runs.pure (by rintro v ⟨⟩)
  | some o =>
    cases o with
    | ref n g => exact (h n).bind fun i hi => Runs.pure (by intro c hc; exact hi.2 c (Option.some.inj hc))
    | _ => exact Runs.pure (by rintro v ⟨⟩)

end

/-! ### Getters that meet no reference -/

/-- not a reference -/
def Direct (o : Obj) : Prop := ∀ n g, o ≠ .ref n g

theorem getObject_plain (rs : Resolver) {d : Dict} {k : Bytes} (h : ∀ o, d.get? k = some o → Direct o) : Dict.getObject rs d k = pure (d.get? k) := by
  rw [Dict.getObject]
  cases ho : d.get? k with
  | none => rfl
  | some o =>
    have := h o ho
    cases o with
    | ref n g => exact absurd rfl (this n g)
    | _ => rfl

theorem arrObject_plain (rs : Resolver) {l : List Obj} {i : Int} (h : ∀ o, l[i.toNat]? = some o → Direct o) : Arr.getObject rs l i = pure (if i < 0 then none else l[i.toNat]?) := by
  rw [Arr.getObject]
  split
  · rfl
  cases ho : l[i.toNat]? with
  | none => rfl
  | some o =>
    have := h o ho
    cases o with
    | ref n g => exact absurd rfl (this n g)
    | _ => rfl

theorem direct_of_norefs {o : Obj} (h : ∀ m, ¬ Refers o m) : Direct o := by rintro n g rfl; exact h n .here

theorem getInt_direct (rs : Resolver) {d : Dict} {k : Bytes} (h : ∀ o, d.get? k = some o → Direct o) (dflt : Int) :
    (Dict.getInt rs d k >>= fun o => pure (o.getD dflt)) = (pure (intOr d k dflt) : M Int) := by
  rw [Dict.getInt, Dict.getNumber, getObject_plain rs h, intOr]
  cases ho : d.get? k with
  | none => rfl
  | some o => cases o <;> rfl

/-! ### Streams and objects -/

theorem refers_arr {l : List Obj} (h : ∀ m, ¬ Refers (.arr l) m) : ∀ o ∈ l, ∀ m, ¬ Refers o m := fun o ho m hm => h m (.arr ho hm)

theorem refers_dict {d : Dict} (h : ∀ m, ¬ Refers (.dict d) m) {k : Bytes} {o : Obj} (ho : d.get? k = some o) : ∀ m, ¬ Refers o m := fun m hm => h m (.dict ho hm)

/-- decode parameters: tame, without references -/
def Parms (U : Prop) (d : Dict) : Prop := TameFor U d ∧ ∀ m, ¬ Refers (.dict d) m

theorem Parms.nil : Parms U [] := ⟨tame_nil, fun m h => by cases h with | dict h _ => cases h⟩

theorem Parms.direct {d : Dict} (h : Parms U d) (k : Bytes) : ∀ o, d.get? k = some o → Direct o := fun _ ho => direct_of_norefs (refers_dict h.2 ho)

theorem getIntD_eq (rs : Resolver) {d : Dict} (h : Parms U d) (k : Bytes) (s : PS) : ∃ o, Dict.getInt rs d k s = .ok (o, s) ∧ ∀ dflt, o.getD dflt = intOr d k dflt := by
  rw [Dict.getInt, Dict.getNumber, getObject_plain rs (h.direct k)]
  refine ⟨((d.get? k).bind Obj.asNum?).map F64.toInt, rfl, fun dflt => ?_⟩
  rw [intOr]
  cases d.get? k with
  | none => rfl
  | some o => cases o <;> rfl

theorem reversePredictorM_ok (rs : Resolver) {d : Dict} (h : Parms U d) {data : Bytes} (hlen : data.length < 2 ^ 59) (s : PS) :
    ∃ out, ∀ rs, reversePredictorM rs data d s = .ok (out, s) := by
  obtain ⟨out, ho⟩ := Props.C34_no_panic_partial data (intOr d b!"Predictor" 1) (intOr d b!"BitsPerComponent" 8) (intOr d b!"Colors" 1) (intOr d b!"Columns" 1)
    (by omega) (fun h2 _ _ _ => by have := h.1.predictor h2; omega)
  refine ⟨out, fun rs => ?_⟩
  rw [reversePredictorM]
  obtain ⟨o1, h1, e1⟩ := getIntD_eq rs h b!"Predictor" s
  obtain ⟨o2, h2, e2⟩ := getIntD_eq rs h b!"BitsPerComponent" s
  obtain ⟨o3, h3, e3⟩ := getIntD_eq rs h b!"Colors" s
  obtain ⟨o4, h4, e4⟩ := getIntD_eq rs h b!"Columns" s
  rw [bind_of_ok h1, bind_of_ok h2, bind_of_ok h3, bind_of_ok h4, e1, e2, e3, e4, ho]
  rfl

section
variable {cd : Codecs} (hcd : Moderate cd)
include hcd

theorem decodeStream_ok {d : Dict} (h : Parms U d) (filter : Bytes) (data : Option Bytes) (s : PS) :
    ∃ out, ∀ rs, decodeStream cd rs filter data d s = .ok (out, s) := by
  cases data with
  | none => exact ⟨none, fun _ => rfl⟩
  | some data =>
  cases data with
  | nil => exact ⟨some [], fun _ => rfl⟩
  | cons b t =>
    simp only [decodeStream]
    by_cases h1 : filter = b!"ASCIIHexDecode"
    · simp only [if_pos h1]; exact ⟨_, fun _ => rfl⟩
    simp only [if_neg h1]
    by_cases h1 : filter = b!"ASCII85Decode"
    · simp only [if_pos h1]; exact ⟨_, fun _ => rfl⟩
    simp only [if_neg h1]
    by_cases h1 : filter = b!"RunLengthDecode"
    · simp only [if_pos h1]; exact ⟨_, fun _ => rfl⟩
    simp only [if_neg h1]
    by_cases h1 : filter = b!"FlateDecode"
    · simp only [if_pos h1]
      have : ∃ out, ∀ rs, flateDecode cd rs (b :: t) d s = .ok (out, s) := by
        simp only [flateDecode]
        cases hz : cd.zlib (b :: t) with
        | none => exact ⟨_, fun _ => rfl⟩
        | some p =>
          obtain ⟨out, failed⟩ := p
          dsimp only
          cases hc : (out.isEmpty && failed) with
          | true => exact ⟨_, fun _ => rfl⟩
          | false => exact reversePredictorM_ok (fun n => pure (newIndObj n)) h (hcd.1 _ _ _ hz) s
      obtain ⟨out, ho⟩ := this
      exact ⟨some out, fun rs => by rw [bind_of_ok (ho rs)]; rfl⟩
    simp only [if_neg h1]
    by_cases h1 : filter = b!"LZWDecode"
    · simp only [if_pos h1]
      have : ∃ out, ∀ rs, lzwDecode cd rs (b :: t) d s = .ok (out, s) := by
        obtain ⟨out, ho⟩ := reversePredictorM_ok (fun n => pure (newIndObj n)) h (hcd.2 (intOr d b!"EarlyChange" 1 ≠ 0) (b :: t)) s
        refine ⟨if (cd.lzw (intOr d b!"EarlyChange" 1 ≠ 0) (b :: t)).1.isEmpty && (cd.lzw (intOr d b!"EarlyChange" 1 ≠ 0) (b :: t)).2 then b :: t else out, fun rs => ?_⟩
        rw [lzwDecode]
        obtain ⟨o, h1, e1⟩ := getIntD_eq rs h b!"EarlyChange" s
        rw [bind_of_ok h1, e1]
        dsimp only
        split
        · rfl
        · exact ho rs
      obtain ⟨out, ho⟩ := this
      exact ⟨some out, fun rs => by rw [bind_of_ok (ho rs)]; rfl⟩
    simp only [if_neg h1]
    exact ⟨_, fun _ => rfl⟩

/-- elements without references, dictionaries among them tame -/
def Items (U : Prop) (l : List Obj) : Prop := ∀ o ∈ l, TameObj U o ∧ ∀ m, ¬ Refers o m

theorem decodeLoop_ok {filters parms : List Obj} (hf : Items U filters) (hp : Items U parms) : ∀ n i data s,
    ∃ out, ∀ rs, decodeLoop cd rs filters parms n i data s = .ok (out, s) := by
  intro n
  induction n with
  | zero => intro i data s; exact ⟨data, fun _ => rfl⟩
  | succ n ih =>
    intro i data s
    have hdir : ∀ {l : List Obj}, Items U l → ∀ o, l[i.toNat]? = some o → Direct o := fun hl o ho => direct_of_norefs (hl o (List.mem_of_getElem? ho)).2
    obtain ⟨fo, hfo⟩ : ∃ fo, ∀ rs, Arr.getName rs filters i s = .ok (fo, s) := ⟨_, fun rs => by rw [Arr.getName, arrObject_plain rs (hdir hf)]; rfl⟩
    obtain ⟨po, hpo, hpar⟩ : ∃ po, (∀ rs, Arr.getDict rs parms i s = .ok (po, s)) ∧ Parms U (po.getD []) := by
      refine ⟨_, fun rs => by rw [Arr.getDict, arrObject_plain rs (hdir hp)]; rfl, ?_⟩
      split
      · exact Parms.nil
      · cases ho : parms[i.toNat]? with
        | none => exact Parms.nil
        | some o =>
          have := hp o (List.mem_of_getElem? ho)
          cases o with
          | dict d => exact ⟨this.1.dict, this.2⟩
          | _ => exact Parms.nil
    obtain ⟨out, ho⟩ := decodeStream_ok hcd hpar (fo.getD []) data s
    obtain ⟨out', ho'⟩ := ih (i + 1) out s
    refine ⟨out', fun rs => ?_⟩
    rw [decodeLoop, bind_of_ok (hfo rs), bind_of_ok (hpo rs), bind_of_ok (ho rs)]
    exact ho' rs

end

theorem filterList_ok {d : Dict} (h : TameObj U (.dict d)) (s : PS) : ∃ l, (∀ rs, filterList rs d s = .ok (l, s)) ∧ Items U l := by
  have hn := h.dict.direct b!"Filter" (by simp)
  have hg : ∀ rs, Dict.getObject rs d b!"Filter" = pure (d.get? b!"Filter") := fun rs => getObject_plain rs fun o ho => direct_of_norefs (hn o ho)
  simp only [filterList, Dict.getArray, Dict.getName, hg]
  cases ho : d.get? b!"Filter" with
  | none => exact ⟨[], fun _ => rfl, by simp [Items]⟩
  | some o =>
    cases o with
    | arr l => exact ⟨l, fun _ => rfl, fun o ho' => ⟨(h.value ho).arr o ho', refers_arr (hn _ ho) o ho'⟩⟩
    | name b => exact ⟨[.name b], fun _ => rfl, fun o ho' => by rw [List.mem_singleton.1 ho']; exact ⟨TameObj.nil rfl, fun m hm => by cases hm⟩⟩
    | _ => exact ⟨[], fun _ => rfl, by simp [Items]⟩

theorem parmsList_ok {d : Dict} (h : TameObj U (.dict d)) (s : PS) : ∃ l, (∀ rs, parmsList rs d s = .ok (l, s)) ∧ Items U l := by
  have hn := h.dict.direct b!"DecodeParms" (by simp)
  have hg : ∀ rs, Dict.getObject rs d b!"DecodeParms" = pure (d.get? b!"DecodeParms") := fun rs => getObject_plain rs fun o ho => direct_of_norefs (hn o ho)
  simp only [parmsList, Dict.getArray, Dict.getDict, hg]
  cases ho : d.get? b!"DecodeParms" with
  | none => exact ⟨[], fun _ => rfl, by simp [Items]⟩
  | some o =>
    cases o with
    | arr l => exact ⟨l, fun _ => rfl, fun o ho' => ⟨(h.value ho).arr o ho', refers_arr (hn _ ho) o ho'⟩⟩
    | dict b => exact ⟨[.dict b], fun _ => rfl, fun o ho' => by rw [List.mem_singleton.1 ho']; exact ⟨h.value ho, hn _ ho⟩⟩
    | _ => exact ⟨[], fun _ => rfl, by simp [Items]⟩

theorem Items.drop {l : List Obj} (h : Items U l) (n : Nat) : Items U (l.drop n) := fun o ho => h o (List.mem_of_mem_drop ho)


theorem streamCrypt_ok (sh : SecHandler) {b : Bool} {d : Dict} (h : TameObj U (.dict d)) {fl pl : List Obj} (hf : Items U fl) (hp : Items U pl) (s : PS) :
    ∃ cf fl' pl', (∀ rs, streamCrypt rs sh b d fl pl s = .ok ((cf, fl', pl'), s)) ∧ Items U fl' ∧ Items U pl' := by
  by_cases hb : b = false
  · exact ⟨_, fl, pl, fun _ => by rw [streamCrypt, if_pos hb]; rfl, hf, hp⟩
  have ht : ∀ rs, Dict.getName rs d b!"Type" s = .ok ((d.get? b!"Type").bind Obj.asName?, s) := fun rs => by
    rw [Dict.getName, getObject_plain rs fun o ho => direct_of_norefs (h.dict.direct _ (by simp) o ho)]; rfl
  by_cases hl : fl.length = 0
  · exact ⟨(if (d.get? b!"Type").bind Obj.asName? = some b!"EmbeddedFile" then sh.fileFilter else sh.streamFilter), fl, pl, fun rs => by rw [streamCrypt, if_neg hb, bind_of_ok (ht rs), if_pos hl]; rfl, hf, hp⟩
  have hdir : ∀ {l : List Obj}, Items U l → ∀ o, l[(0 : Int).toNat]? = some o → Direct o := fun hl o ho => direct_of_norefs (hl o (List.mem_of_getElem? ho)).2
  obtain ⟨fo, hfo⟩ : ∃ fo, ∀ rs, Arr.getName rs fl 0 s = .ok (fo, s) := ⟨_, fun rs => by rw [Arr.getName, arrObject_plain rs (hdir hf)]; rfl⟩
  by_cases h0 : fo.getD [] = b!"Crypt"
  · obtain ⟨po, hpo, hpar⟩ : ∃ po, (∀ rs, Arr.getDict rs pl 0 s = .ok (po, s)) ∧ Parms U (po.getD []) := by
      refine ⟨_, fun rs => by rw [Arr.getDict, arrObject_plain rs (hdir hp)]; rfl, ?_⟩
      split
      · exact Parms.nil
      · cases ho : pl[(0 : Int).toNat]? with
        | none => exact Parms.nil
        | some o =>
          have := hp o (List.mem_of_getElem? ho)
          cases o with
          | dict d => exact ⟨this.1.dict, this.2⟩
          | _ => exact Parms.nil
    refine ⟨(sh.cryptFilters.get? ((((po.getD []).get? b!"Name").bind Obj.asName?).getD b!"Identity")).getD (if (d.get? b!"Type").bind Obj.asName? = some b!"EmbeddedFile" then sh.fileFilter else sh.streamFilter), fl.drop 1, pl.drop 1, fun rs => ?_, hf.drop 1, hp.drop 1⟩
    have hn : Dict.getName rs (po.getD []) b!"Name" s = .ok (((po.getD []).get? b!"Name").bind Obj.asName?, s) := by
      rw [Dict.getName, getObject_plain rs (hpar.direct _)]; rfl
    rw [streamCrypt, if_neg hb, bind_of_ok (ht rs), if_neg hl, bind_of_ok (hfo rs)]
    simp only [if_pos h0]
    rw [bind_of_ok (hpo rs), bind_of_ok hn]
    rfl
  · refine ⟨(if (d.get? b!"Type").bind Obj.asName? = some b!"EmbeddedFile" then sh.fileFilter else sh.streamFilter), fl, pl, fun rs => ?_, hf, hp⟩
    rw [streamCrypt, if_neg hb, bind_of_ok (ht rs), if_neg hl, bind_of_ok (hfo rs)]
    simp only [if_neg h0]
    rfl

theorem readStream_ok {cd : Codecs} (hcd : Moderate cd) {file : Bytes} {dec : Bytes → Res Bytes} {g : Bytes → Bytes} (hd : ∀ b, dec b = .ok (g b))
    {fl pl : List Obj} (hf : Items U fl) (hp : Items U pl) (s : PS) :
    ∃ o t, ∀ rs, readStream file cd rs dec fl pl s = .ok (o, t) := by
  cases h : readStreamRaw file s with | mk r t =>
  have h' : (St.ofFun (readStreamRaw file) : M _) s = .ok (r, t) := by rw [St.ofFun, h]
  cases r with
  | none => exact ⟨some [], t, fun rs => by rw [readStream, bind_of_ok h']; rfl⟩
  | some raw =>
    obtain ⟨out, ho⟩ := decodeLoop_ok hcd hf hp fl.length 0 (some (g raw)) t
    exact ⟨out, t, fun rs => by rw [readStream, bind_of_ok h']; simp only; rw [bind_of_ok (show (St.ofRes (dec raw) : M _) t = .ok (g raw, t) by rw [St.ofRes, hd]; rfl)]; exact ho rs⟩

theorem decrypt_none (ext : Ext) (v : Option Bool) (n g : Int) : decrypt ext v (newDecryptor ext .none n g) = noDec := rfl

theorem getStreamF_ok {env : Env} (hv0 : env.verbose ≠ none) (hcd : Moderate env.ext.toCodecs) (n : Int) (e : XrefEntry) {v : Obj} (hv : TameObj U v) (s : PS) :
    ∃ o t, ∀ rs, getStreamF env rs n e v s = .ok (o, t) := by
  cases h : readKeyword env.file s with | mk kw t =>
  have h' : (St.ofFun (readKeyword env.file) : M _) s = .ok (kw, t) := by rw [St.ofFun, h]
  by_cases hk : kw = b!"stream"
  · have hd : TameObj U (.dict ((Obj.asDict? v).getD [])) := by
      cases v with
      | dict d => exact hv
      | _ => exact AllDicts.ofDict tame_nil (by intro p hp; cases hp)
    obtain ⟨fl, h1, hf⟩ := filterList_ok hd t
    obtain ⟨pl, h2, hp⟩ := parmsList_ok hd t
    obtain ⟨cf, fl', pl', h3, hf', hp'⟩ := streamCrypt_ok env.sh (b := e.isEncrypted) hd hf hp t
    obtain ⟨g, -, hg⟩ := decrypt_total env.ext hv0 (newDecryptor env.ext cf n e.generation)
    obtain ⟨o, u, h4⟩ := readStream_ok hcd (file := env.file) hg hf' hp' t
    refine ⟨o, u, fun rs => ?_⟩
    rw [getStreamF, bind_of_ok h', if_pos hk, bind_of_ok (h1 rs), bind_of_ok (h2 rs), bind_of_ok (h3 rs)]
    exact h4 rs
  · exact ⟨none, t, fun rs => by rw [getStreamF, bind_of_ok h', if_neg hk]; rfl⟩

/-- in a tame file `GetObject` follows no references -/
theorem getObjectF_ok {env : Env} (hv0 : env.verbose ≠ none) (hcd : Moderate env.ext.toCodecs) (ht : TameFile U env.file) (n : Int) (s : PS) :
    ∃ o t, (∀ rs, getObjectF env rs n s = .ok (o, t)) ∧ TameObj U o.value ∧ (env.xref.get? n = none → o.value = .null) := by
  simp only [getObjectF]
  cases he : env.xref.get? n with
  | none => exact ⟨_, s, fun _ => rfl, AllDicts.null, fun _ => rfl⟩
  | some e =>
    dsimp only
    by_cases h1 : e.typ = 1
    · simp only [if_pos h1]
      obtain ⟨g, hk, hg⟩ := decrypt_total env.ext hv0 (newDecryptor env.ext (if e.isEncrypted = true then env.sh.stringFilter else CryptFilter.none) n e.generation)
      obtain ⟨v, err, t, hr, hv⟩ := readObj_dec ht hk hg (readObjectHeader env.file (seek s e.offset)).2
      obtain ⟨o, u, hs⟩ := getStreamF_ok hv0 hcd n e hv t
      refine ⟨⟨n, e.generation, v, o⟩, u, fun rs => ?_, hv, fun h => by cases h⟩
      rw [bind_of_ok (show seekM e.offset s = .ok ((), seek s e.offset) from rfl),
        bind_of_ok (show (St.ofFun (readObjectHeader env.file) : M _) (seek s e.offset) = .ok (_, (readObjectHeader env.file (seek s e.offset)).2) from rfl),
        bind_of_ok hr, bind_of_ok (hs rs)]
      rfl
    · simp only [if_neg h1]
      exact ⟨_, s, fun _ => rfl, AllDicts.null, fun _ => rfl⟩

/-- the streams found in a file are character maps that can be loaded -/
def Loads (d : Bytes) : Prop := ∃ font, newFont d = .ok font

theorem mem_keys {x : Assoc Int XrefEntry} {n : Int} (h : x.get? n ≠ none) : n ∈ x.keys := by
  cases h' : x.get? n with
  | none => exact absurd h' h
  | some e => exact List.mem_map_of_mem (f := Prod.fst) (Assoc.get?_some_mem h')

/-- what `Resolve` gives: null for a number without an entry -/
def ResolvedWith (T : Dict → Prop) (S : Bytes → Prop) (x : Assoc Int XrefEntry) (n : Int) (o : IndObj) : Prop := IndWith T S o ∧ (x.get? n = none → o.value = .null)

/-- `GetObject` returns, at whatever depth of calls the same -/
def GetsAll (T : Dict → Prop) (S : Bytes → Prop) (env : Env) : Prop := ∀ n s, ∃ o t, (∀ f, getObject env f n s = .ok (o, t)) ∧ ResolvedWith T S env.xref n o

theorem getsAll_tame {env : Env} (hv : env.verbose ≠ none) (hcd : Moderate env.ext.toCodecs) (ht : TameFile U env.file) : GetsAll (TameFor U) (fun _ => True) env := by
  intro n s
  obtain ⟨o, t, h1, h2, h3⟩ := getObjectF_ok hv hcd ht n s
  exact ⟨o, t, fun _ => h1 _, ⟨h2, fun _ _ => trivial⟩, h3⟩

theorem GetsAll.streams {env : Env} {T : Dict → Prop} {S S' : Bytes → Prop} (h : GetsAll T S env) (hs : ∀ f n s o s', getObject env f n s = .ok (o, s') → ∀ d, o.stream = some d → S' d) :
    GetsAll T S' env := by
  intro n s
  obtain ⟨o, t, h1, h2, h3⟩ := h n s
  exact ⟨o, t, h1, ⟨h2.1, hs 0 n s o t (h1 0)⟩, h3⟩

section
variable {env : Env} {T : Dict → Prop} {S : Bytes → Prop} (hg : GetsAll T S env)
include hg

theorem getObject_runs (n : Int) : RunsM (IndWith T S) fun i => getObject env i.f n := by
  refine Runs.const fun s _ => ?_
  obtain ⟨o, t, h1, h2, -⟩ := hg n s
  exact ⟨o, t, fun _ => h1 _, h2, trivial⟩

theorem resolve_runs (k : Nat) : ∀ seen n, left env.xref.keys seen ≤ k → RunsM (ResolvedWith T S env.xref n) fun i => resolve env i.f seen n := by
  induction k with
  | zero =>
    intro seen n hk
    refine Runs.unshift_f ?_
    simp only [resolve]
    refine Runs.ite (fun _ => Runs.pure ⟨⟨AllDicts.null, by intro d hd; cases hd⟩, fun _ => rfl⟩) fun hn => ?_
    have h0 : env.xref.get? n = none := Classical.byContradiction fun h => by have := left_lt (mem_keys h) hn; omega
    refine Runs.bind (P := fun o => ResolvedWith T S env.xref n o ∧ o.value = .null) (Runs.const fun s _ => ?_) fun o ho => ?_
    · obtain ⟨o, t, h1, h2, h3⟩ := hg n s
      exact ⟨o, t, fun _ => h1 _, ⟨⟨h2, h3⟩, h3 h0⟩, trivial⟩
    · simp only [ho.2]
      exact Runs.pure ho.1
  | succ k ih =>
    intro seen n hk
    refine Runs.unshift_f ?_
    simp only [resolve]
    refine Runs.ite (fun _ => Runs.pure ⟨⟨AllDicts.null, by intro d hd; cases hd⟩, fun _ => rfl⟩) fun hn => ?_
    refine Runs.bind (P := ResolvedWith T S env.xref n) (Runs.const fun s _ => ?_) fun o ho => ?_
    · obtain ⟨o, t, h1, h2, h3⟩ := hg n s
      exact ⟨o, t, fun _ => h1 _, ⟨h2, h3⟩, trivial⟩
    · obtain ⟨num, gen, v, st⟩ := o
      cases v with
      | ref m g =>
        have hne : env.xref.get? n ≠ none := fun h => by cases ho.2 h
        refine (ih (n :: seen) m ?_).mono fun o ho' => ⟨ho'.1, fun h => absurd h hne⟩
        have := left_lt (mem_keys hne) hn
        omega
      | _ => exact Runs.pure ho

/-- a bound on the depth that is enough for every state -/
theorem resolve_returns (k : Nat) : ∀ seen n, left env.xref.keys seen ≤ k → ∀ s, ∃ o t, resolve env (k + 1) seen n s = .ok (o, t) ∧ ResolvedWith T S env.xref n o := by
  induction k with
  | zero =>
    intro seen n hk s
    rw [resolve]
    split
    · exact ⟨_, _, rfl, ⟨⟨AllDicts.null, by intro d hd; cases hd⟩, fun _ => rfl⟩⟩
    · rename_i hn
      have h0 : env.xref.get? n = none := Classical.byContradiction fun h => by have := left_lt (mem_keys h) hn; omega
      obtain ⟨o, t, h1, h2, h3⟩ := hg n s
      rw [bind_of_ok (show getObjectF env (fun m => keepOffset (resolve env 0 [] m)) n s = _ from h1 0)]
      simp only [h3 h0]
      exact ⟨o, t, rfl, h2, h3⟩
  | succ k ih =>
    intro seen n hk s
    rw [resolve]
    split
    · exact ⟨_, _, rfl, ⟨⟨AllDicts.null, by intro d hd; cases hd⟩, fun _ => rfl⟩⟩
    · rename_i hn
      obtain ⟨o, t, h1, ho⟩ := hg n s
      rw [bind_of_ok (show getObjectF env (fun m => keepOffset (resolve env (k + 1) [] m)) n s = _ from h1 (k + 1))]
      obtain ⟨num, gen, v, st⟩ := o
      cases v with
      | ref m g =>
        have hne : env.xref.get? n ≠ none := fun h => by cases ho.2 h
        have := left_lt (mem_keys hne) hn
        obtain ⟨o, t', h2, h3⟩ := ih (n :: seen) m (by omega) t
        exact ⟨o, t', h2, h3.1, fun h => absurd h hne⟩
      | _ => exact ⟨_, t, rfl, ho⟩

theorem resolver_returns (n : Int) (s : PS) : ∃ o t, resolver env (left env.xref.keys [] + 1) n s = .ok (o, t) ∧ ResolvedWith T S env.xref n o := by
  obtain ⟨o, t, h1, h2⟩ := resolve_returns hg _ [] n (Nat.le_refl _) s
  refine ⟨o, seek t (currentOffset s), ?_, h2⟩
  show (resolve env _ [] n s >>= fun p => Res.ok (p.1, seek p.2 (currentOffset s))) = _
  rw [h1]
  rfl

theorem resolver_runs (n : Int) : RunsM (ResolvedWith T S env.xref n) fun i => resolver env i.f n := by
  intro s hs
  obtain ⟨a, t, ha, -, F, hF⟩ := resolve_runs hg _ [] n (Nat.le_refl _) s hs
  refine ⟨a, seek t (currentOffset s), ha, trivial, F, fun i hi => ?_⟩
  show (resolve env i.f [] n s >>= fun p => Res.ok (p.1, seek p.2 (currentOffset s))) = _
  rw [show resolve env i.f [] n s = _ from hF i hi]
  rfl

end

end Pdf
