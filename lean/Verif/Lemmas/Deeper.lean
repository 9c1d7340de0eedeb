import Verif.Lemmas.RunsExtract
import Verif.Model.Main
/-!
Larger bounds on the depth of calls change nothing but non-termination, for loading, extraction and `Parse`.
-/

namespace Pdf
open St

section
variable {rs rs' : Resolver} (h : ∀ n, St.Le (rs n) (rs' n))
include h

/-! ### Encryption -/

theorem loadCryptFilter_le (ext : Ext) (pw : Bytes) (sh : SecHandler) (k : Bytes) (o : Obj) : St.Le (loadCryptFilter ext rs pw sh k o) (loadCryptFilter ext rs' pw sh k o) := by
  unfold loadCryptFilter
  split
  · refine (Dict.getName_le h _ _).bind fun m => ?_
    split
    · exact (Dict.getInt_le h _ _).bind fun _ => St.Le.refl _
    · exact St.Le.refl _
  · exact St.Le.refl _

theorem namedFilter_le (d : Dict) (sh : SecHandler) (k : Bytes) (c : CryptFilter) : St.Le (namedFilter rs d sh k c) (namedFilter rs' d sh k c) :=
  (Dict.getName_le h _ _).bind fun _ => St.Le.refl _

theorem lengthEntry_le (d : Dict) (v : Int) : St.Le (lengthEntry rs d v) (lengthEntry rs' d v) := by
  unfold lengthEntry
  split
  · exact St.Le.refl _
  · exact Dict.getInt_le h _ _

end

section
variable {rs rs' : SecHandler → Resolver} (h : ∀ sh n, St.Le (rs sh n) (rs' sh n))
include h

theorem loadCryptFilters_le (ext : Ext) (pw : Bytes) : ∀ l sh, St.Le (loadCryptFilters ext rs pw l sh) (loadCryptFilters ext rs' pw l sh)
  | [], _ => St.Le.refl _
  | (_, _) :: t, sh => (loadCryptFilter_le (h sh) _ _ _ _ _).bind fun _ => loadCryptFilters_le ext pw t _

theorem setFilters_le (ext : Ext) (ord : Order) (pw : Bytes) (d : Dict) (sh : SecHandler) : St.Le (setFilters ext rs ord pw d sh) (setFilters ext rs' ord pw d sh) := by
  unfold setFilters
  dsimp only
  split
  · exact (Dict.getDict_le (h _) _ _).bind fun _ => (loadCryptFilters_le h _ _ _ _).bind fun _ => (namedFilter_le (h _) _ _ _ _).bind fun _ =>
      (namedFilter_le (h _) _ _ _ _).bind fun _ => (namedFilter_le (h _) _ _ _ _).bind fun _ => St.Le.refl _
  · exact St.Le.refl _

theorem secInit_le (ext : Ext) (ord : Order) (pw : Bytes) (d : Dict) (sh : SecHandler) : St.Le (secInit ext rs ord pw d sh) (secInit ext rs' ord pw d sh) := by
  unfold secInit
  repeat' first
    | with_reducible exact St.Le.refl _
    | exact Dict.getDict_le (h _) _ _
    | exact Dict.getName_le (h _) _ _
    | exact Dict.getInt_le (h _) _ _
    | exact Dict.getString_le (h _) _ _
    | exact Dict.getBool_le (h _) _ _
    | exact Dict.getArray_le (h _) _ _
    | exact Arr.getString_le (h _) _ _
    | exact lengthEntry_le (h _) _ _
    | exact setFilters_le h _ _ _ _ _
    | (refine St.Le.bind ?_ fun _ => ?_)
    | split
    | (dsimp only; split)

end

/-! ### Loading -/

theorem liftM_le {α : Type} {x y : LS → M α} (h : ∀ s, St.Le (x s) (y s)) : St.Le (liftM x) (liftM y) := by
  intro s
  rcases h s s.ps with h | h
  · left; rw [liftM, h]; rfl
  · right; rw [liftM, liftM, h]

section
variable {cfg : Cfg} {get get' : Env → Int → M IndObj} {rs rs' : Env → Resolver} (hg : ∀ env n, St.Le (get env n) (get' env n)) (h : ∀ env n, St.Le (rs env n) (rs' env n))
include h

theorem streamSections_le (index : List Obj) (w0 w1 w2 : Int) : ∀ k i d, St.Le (streamSections cfg rs index w0 w1 w2 k i d) (streamSections cfg rs' index w0 w1 w2 k i d)
  | 0, _, _ => St.Le.refl _
  | k + 1, i, d => by
    rw [streamSections, streamSections]
    refine (liftM_le fun _ => Arr.getInt_le (h _) _ _).bind fun a => ?_
    split
    · exact St.Le.refl _
    · refine (liftM_le fun _ => Arr.getInt_le (h _) _ _).bind fun a => ?_
      split
      · exact St.Le.refl _
      · refine (St.Le.refl _).bind fun a => ?_
        split
        · exact St.Le.refl _
        · exact streamSections_le index w0 w1 w2 k _ _

theorem streamIndex_le (d : Dict) : St.Le (streamIndex cfg rs d) (streamIndex cfg rs' d) := by
  refine (liftM_le fun _ => Dict.getArray_le (h _) _ _).bind fun a => ?_
  split
  · exact St.Le.refl _
  · exact (liftM_le fun _ => Dict.getNumber_le (h _) _ _).bind fun a => St.Le.refl _

theorem streamBody_le (o : IndObj) (d : Dict) (off : Int) : St.Le (streamBody cfg rs o d off) (streamBody cfg rs' o d off) := by
  unfold streamBody
  repeat' first
    | with_reducible exact St.Le.refl _
    | exact streamIndex_le h _
    | exact liftM_le fun _ => Dict.getArray_le (h _) _ _
    | exact liftM_le fun _ => Arr.getInt_le (h _) _ _
    | exact streamSections_le h _ _ _ _ _ _ _
    | (refine St.Le.bind ?_ fun _ => ?_)
    | split
    | (dsimp only; split)

include hg

theorem loadXref_le_succ : ∀ k off seen, St.Le (loadXref cfg get rs k off seen) (loadXref cfg get' rs' (k + 1) off seen)
  | 0, _, _ => St.Le.oof_left _
  | k + 1, off, seen => by
    rw [loadXref, loadXref.eq_2]
    repeat' first
      | with_reducible exact St.Le.refl _
      | exact liftM_le fun _ => Dict.getInt_le (h _) _ _
      | exact liftM_le fun _ => hg _ _
      | exact streamBody_le h _ _ _
      | exact loadXref_le_succ k _ _
      | (refine St.Le.bind ?_ fun _ => ?_)
      | split
      | (dsimp only; split)

theorem loadXref_le : ∀ k off seen, St.Le (loadXref cfg get rs k off seen) (loadXref cfg get' rs' k off seen)
  | 0, _, _ => St.Le.oof_left _
  | k + 1, off, seen => by
    rw [loadXref, loadXref]
    repeat' first
      | with_reducible exact St.Le.refl _
      | exact liftM_le fun _ => Dict.getInt_le (h _) _ _
      | exact liftM_le fun _ => hg _ _
      | exact streamBody_le h _ _ _
      | exact loadXref_le k _ _
      | (refine St.Le.bind ?_ fun _ => ?_)
      | split
      | (dsimp only; split)

theorem loadXref_deeper {k k' : Nat} (hk : k ≤ k') (off : Int) (seen : List Int) : St.Le (loadXref cfg get rs k off seen) (loadXref cfg get' rs' k' off seen) := by
  induction hk with
  | refl => exact loadXref_le hg h k off seen
  | step hk ih => exact ih.trans (loadXref_le_succ (fun _ _ => St.Le.refl _) (fun _ _ => St.Le.refl _) _ off seen)

theorem loadAll_le {k k' : Nat} (hk : k ≤ k') : ∀ l, St.Le (loadAll cfg get rs k l) (loadAll cfg get' rs' k' l)
  | [] => St.Le.refl _
  | _ :: t => (loadXref_deeper hg h hk _ _).bind fun _ => loadAll_le hk t

omit hg in
theorem findObjectsLoop_le : ∀ k o objs, St.Le (findObjectsLoop cfg rs k o objs) (findObjectsLoop cfg rs' k o objs)
  | 0, _, _ => St.Le.refl _
  | k + 1, o, objs => by
    rw [findObjectsLoop, findObjectsLoop]
    split
    · exact St.Le.refl _
    · exact (St.Le.refl _).bind fun _ => (St.Le.refl _).bind fun _ => (St.Le.refl _).bind fun _ => (liftM_le fun _ => Dict.getName_le (h _) _ _).bind fun _ => findObjectsLoop_le k _ _

omit hg in
theorem loadPlan_le : St.Le (loadPlan cfg rs) (loadPlan cfg rs') :=
  (St.Le.refl _).bind fun _ => (findObjectsLoop_le h _ _ _).bind fun _ => St.Le.refl _

omit hg in
theorem setPassword_le (ord : Order) (pw : Bytes) : St.Le (setPassword cfg rs ord pw) (setPassword cfg rs' ord pw) := by
  intro s
  rcases secInit_le (rs := fun sh => rs { s.env cfg with sh := sh }) (rs' := fun sh => rs' { s.env cfg with sh := sh }) (fun sh n => h _ n) cfg.ext ord pw s.trailer s.sh s.ps with h | h
  · left; rw [setPassword, h]; rfl
  · right; rw [setPassword, setPassword, h]

theorem loadF_le (ord : Order) {k k' : Nat} (hk : k ≤ k') (pw : Bytes) : St.Le (loadF cfg get rs ord k pw) (loadF cfg get' rs' ord k' pw) := by
  refine (loadPlan_le h).bind fun p => ?_
  refine (loadAll_le hg h hk _).bind fun _ => (St.Le.refl _).bind fun _ => (St.Le.refl _).bind fun e => ?_
  split
  · exact (St.Le.refl _).bind fun _ => setPassword_le h _ _
  · exact St.Le.refl _

end

theorem load_le (cfg : Cfg) (ord : Order) {f f' fx fx' : Nat} (hf : f ≤ f') (hx : fx ≤ fx') (pw : Bytes) : St.Le (load cfg ord f fx pw) (load cfg ord f' fx' pw) :=
  loadF_le (fun env n => getObject_le env hf n) (fun env n => resolver_le env hf n) ord hx pw

/-! ### Extraction -/

theorem liftX_le {α : Type} {x y : M α} (h : St.Le x y) : St.Le (liftX x) (liftX y) := by
  intro s
  rcases h s.ps with h | h
  · left; rw [liftX, h]; rfl
  · right; rw [liftX, liftX, h]

section
variable {rs rs' : Resolver} (h : ∀ n, St.Le (rs n) (rs' n))
include h

theorem nameTree_le : ∀ k k', k ≤ k' → (∀ d seen, St.Le (nameTree rs k d seen) (nameTree rs' k' d seen)) ∧ ∀ kids acc seen, St.Le (nameTreeKids rs k kids acc seen) (nameTreeKids rs' k' kids acc seen)
  | 0, _, _ => ⟨fun _ _ => St.Le.oof_left _, fun _ _ _ => St.Le.oof_left _⟩
  | k + 1, 0, hk => by omega
  | k + 1, k' + 1, hk => by
    obtain ⟨ih1, ih2⟩ := nameTree_le k k' (by omega)
    constructor
    · intro d seen
      rw [nameTree, nameTree]
      refine (Dict.getArray_le h _ _).bind fun _ => (Dict.getArray_le h _ _).bind fun _ => ?_
      split
      · exact St.Le.refl _
      · exact ih2 _ _ _
    · intro kids acc seen
      cases kids with
      | nil => rw [nameTreeKids, nameTreeKids]; exact St.Le.refl _
      | cons kid kids =>
        cases kid <;> rw [nameTreeKids, nameTreeKids] <;> first
          | (intro _ _ h; cases h; done)
          | exact (ih1 _ _).bind fun _ => ih2 _ _ _
          | split
            · exact ih2 _ _ _
            · exact (h _).bind fun _ => (ih1 _ _).bind fun _ => ih2 _ _ _

theorem getNameTreeMap_le {k k' : Nat} (hk : k ≤ k') (d : Dict) (key : Bytes) : St.Le (getNameTreeMap rs k d key) (getNameTreeMap rs' k' d key) := by
  refine (Dict.getDict_le h _ _).bind fun _ => ?_
  split
  · exact ((nameTree_le h _ _ hk).1 _ _).bind fun _ => St.Le.refl _
  · exact St.Le.refl _

theorem resolveKids_le : ∀ k k', k ≤ k' → (∀ d seen, St.Le (resolveKids rs k d seen) (resolveKids rs' k' d seen)) ∧ ∀ kids acc seen, St.Le (resolveKidsLoop rs k kids acc seen) (resolveKidsLoop rs' k' kids acc seen)
  | 0, _, _ => ⟨fun _ _ => St.Le.oof_left _, fun _ _ _ => St.Le.oof_left _⟩
  | k + 1, 0, hk => by omega
  | k + 1, k' + 1, hk => by
    obtain ⟨ih1, ih2⟩ := resolveKids_le k k' (by omega)
    constructor
    · intro d seen
      rw [resolveKids, resolveKids]
      refine (Dict.getArray_le h _ _).bind fun _ => ?_
      split
      · exact St.Le.refl _
      · exact ih2 _ _ _
    · intro kids acc seen
      cases kids with
      | nil => rw [resolveKidsLoop, resolveKidsLoop]; exact St.Le.refl _
      | cons kid kids =>
        cases kid <;> rw [resolveKidsLoop, resolveKidsLoop] <;> first
          | (intro _ _ h; cases h; done)
          | exact ih2 _ _ _
          | split
            · exact ih2 _ _ _
            · refine (h _).bind fun _ => ?_
              split
              · exact (ih1 _ _).bind fun _ => ih2 _ _ _
              · exact ih2 _ _ _

theorem getPageTree_le {k k' : Nat} (hk : k ≤ k') (d : Dict) (key : Bytes) : St.Le (getPageTree rs k d key) (getPageTree rs' k' d key) := by
  refine (Dict.getDict_le h _ _).bind fun _ => ?_
  split
  · exact ((resolveKids_le h _ _ hk).1 _ _).bind fun _ => St.Le.refl _
  · exact St.Le.refl _

theorem pageFonts_le (fonts : Dict) : ∀ ks acc, St.Le (pageFonts rs fonts ks acc) (pageFonts rs' fonts ks acc)
  | [], _ => St.Le.refl _
  | _ :: t, _ => (Dict.getDict_le h _ _).bind fun _ => (Dict.getStream_le h _ _).bind fun _ => (St.Le.refl _).bind fun _ => pageFonts_le fonts t _

theorem pageParts_le (m : Assoc Bytes Font) (a : List Obj) : ∀ n i, St.Le (pageParts rs m a n i) (pageParts rs' m a n i)
  | 0, _ => St.Le.refl _
  | n + 1, i => by
    rw [pageParts, pageParts]
    refine (liftX_le (Arr.getStream_le h _ _)).bind fun _ => ?_
    split
    · exact (St.Le.refl _).bind fun _ => (St.Le.refl _).bind fun _ => pageParts_le m a n _
    · exact pageParts_le m a n _

theorem pageExtract_le (d : Dict) : St.Le (pageExtract rs d) (pageExtract rs' d) := by
  refine (liftX_le (Dict.getDict_le h _ _)).bind fun _ => (liftX_le (Dict.getDict_le h _ _)).bind fun _ => (St.Le.refl _).bind fun _ => (liftX_le (pageFonts_le h _ _ _)).bind fun _ =>
    (liftX_le (Dict.getStream_le h _ _)).bind fun _ => ?_
  split
  · exact St.Le.refl _
  · refine (liftX_le (Dict.getArray_le h _ _)).bind fun _ => ?_
    split
    · exact pageParts_le h _ _ _ _
    · exact St.Le.refl _

theorem pagesExtract_le : ∀ l, St.Le (pagesExtract rs l) (pagesExtract rs' l)
  | [] => St.Le.refl _
  | _ :: t => (pageExtract_le h _).bind fun _ => pagesExtract_le t

theorem fileExtract_le (ext : Ext) (d : Dict) (b : Bool) : St.Le (fileExtract ext rs d b) (fileExtract ext rs' d b) := by
  unfold fileExtract
  repeat' first
    | with_reducible exact St.Le.refl _
    | exact liftX_le (Dict.getString_le h _ _)
    | exact liftX_le (Dict.getDict_le h _ _)
    | exact liftX_le (Dict.getStream_le h _ _)
    | (refine St.Le.bind ?_ fun _ => ?_)
    | split
    | (dsimp only; split)

theorem actionExtract_le (ext : Ext) (d : Dict) : St.Le (actionExtract ext rs d) (actionExtract ext rs' d) := by
  unfold actionExtract
  repeat' first
    | with_reducible exact St.Le.refl _
    | exact liftX_le (Dict.getString_le h _ _)
    | exact liftX_le (Dict.getDict_le h _ _)
    | exact liftX_le (Dict.getName_le h _ _)
    | exact fileExtract_le h _ _ _
    | (refine St.Le.bind ?_ fun _ => ?_)
    | split
    | (dsimp only; split)

theorem aaExtract_le (ext : Ext) (aa : Dict) : ∀ ks, St.Le (aaExtract ext rs aa ks) (aaExtract ext rs' aa ks)
  | [] => St.Le.refl _
  | _ :: t => by
    have ih := aaExtract_le ext aa t
    rw [aaExtract, aaExtract]
    repeat' first
      | with_reducible exact St.Le.refl _
      | exact ih
      | exact liftX_le (Dict.getDict_le h _ _)
      | exact actionExtract_le h _ _
      | (refine St.Le.bind ?_ fun _ => ?_)
      | split
      | (dsimp only; split)

theorem xfaData_le (a : List Obj) : ∀ n i acc, St.Le (xfaData rs a n i acc) (xfaData rs' a n i acc)
  | 0, _, _ => St.Le.refl _
  | n + 1, _, _ => by
    rw [xfaData, xfaData]
    refine (Arr.getStream_le h _ _).bind fun _ => ?_
    split
    · exact xfaData_le a n _ _
    · exact xfaData_le a n _ _

theorem embeddedExtract_le (ext : Ext) (l : List Obj) : ∀ n i, St.Le (embeddedExtract ext rs l n i) (embeddedExtract ext rs' l n i)
  | 0, _ => St.Le.refl _
  | n + 1, i => by
    have ih := embeddedExtract_le ext l n (i + 2)
    rw [embeddedExtract, embeddedExtract]
    repeat' first
      | with_reducible exact St.Le.refl _
      | exact ih
      | exact liftX_le (Arr.getString_le h _ _)
      | exact liftX_le (Arr.getDict_le h _ _)
      | exact fileExtract_le h _ _ _
      | (refine St.Le.bind ?_ fun _ => ?_)
      | split
      | (dsimp only; split)

theorem urlsExtract_le (l : List Obj) : ∀ n i, St.Le (urlsExtract rs l n i) (urlsExtract rs' l n i)
  | 0, _ => St.Le.refl _
  | n + 1, i => by
    have ih := urlsExtract_le l n (i + 2)
    rw [urlsExtract, urlsExtract]
    repeat' first
      | with_reducible exact St.Le.refl _
      | exact ih
      | exact liftX_le (Arr.getString_le h _ _)
      | (refine St.Le.bind ?_ fun _ => ?_)
      | split
      | (dsimp only; split)

theorem dictExtract_le (ext : Ext) {k k' : Nat} (hk : k ≤ k') (d : Dict) : St.Le (dictExtract ext rs k d) (dictExtract ext rs' k' d) := by
  unfold dictExtract dictActions dictXfa dictEmbedded dictJs dictPages dictUri dictUrls
  repeat' first
    | with_reducible exact St.Le.refl _
    | exact liftX_le (Dict.getString_le h _ _)
    | exact liftX_le (Dict.getDict_le h _ _)
    | exact liftX_le (Dict.getStream_le h _ _)
    | exact liftX_le (Dict.getArray_le h _ _)
    | exact liftX_le (xfaData_le h _ _ _ _)
    | exact liftX_le (getNameTreeMap_le h hk _ _)
    | exact liftX_le (getPageTree_le h hk _ _)
    | exact actionExtract_le h _ _
    | exact aaExtract_le h _ _ _
    | exact embeddedExtract_le h _ _ _ _
    | exact urlsExtract_le h _ _ _
    | exact pagesExtract_le h _
    | (refine St.Le.bind ?_ fun _ => ?_)
    | split
    | (dsimp only; split)

end

theorem runAll_le {α : Type} {g g' : α → X Unit} : ∀ l : List α, (∀ a ∈ l, St.Le (g a) (g' a)) → St.Le (runAll (l.map g)) (runAll (l.map g'))
  | [], _ => St.Le.refl _
  | a :: l, h => (h a List.mem_cons_self).bind fun _ => runAll_le l fun b hb => h b (List.mem_cons_of_mem _ hb)

theorem shuffled_le {α : Type} {g g' : α → X Unit} (l : List α) (h : ∀ a ∈ l, St.Le (g a) (g' a)) :
    St.Le (shuffle l >>= fun l' => runAll (l'.map g)) (shuffle l >>= fun l' => runAll (l'.map g')) := by
  intro s
  have hm : ∀ a ∈ s.order.visit l, a ∈ l := fun a ha => (visited s.order l).mem_iff.1 ha
  exact runAll_le (s.order.visit l) (fun a ha => h a (hm a ha)) _

section
variable {rs rs' : Resolver} (h : ∀ n, St.Le (rs n) (rs' n))
include h

theorem extractObj_le (ext : Ext) {k k' : Nat} (hk : k ≤ k') (m : Nat) : ∀ o, sizeOf o < m → St.Le (extractObj ext rs k o) (extractObj ext rs' k' o) := by
  induction m with
  | zero => intro o h; omega
  | succ m ih =>
    intro o ho
    cases o with
    | dict d =>
      simp only [extractObj, extractVals_eq, shuffle_map]
      refine (dictExtract_le h ext hk d).bind fun _ => ?_
      refine shuffled_le (g := fun p : Bytes × Obj => extractObj ext rs k p.2) (g' := fun p : Bytes × Obj => extractObj ext rs' k' p.2) d fun p hp => ih _ ?_
      have := List.sizeOf_lt_of_mem hp
      obtain ⟨a, b⟩ := p
      simp only [Obj.dict.sizeOf_spec, Prod.mk.sizeOf_spec] at *
      omega
    | arr l =>
      simp only [extractObj, extractList_eq]
      refine runAll_le l fun p hp => ih _ ?_
      have := List.sizeOf_lt_of_mem hp
      simp only [Obj.arr.sizeOf_spec] at *
      omega
    | _ => simp only [extractObj]; exact St.Le.refl _

theorem objectExtract_le (ext : Ext) {k k' : Nat} (hk : k ≤ k') (o : IndObj) : St.Le (objectExtract ext rs k o) (objectExtract ext rs' k' o) := by
  unfold objectExtract
  split
  · exact extractObj_le h ext hk _ _ (Nat.lt_succ_self _)
  · exact St.Le.refl _

end

theorem extractEntry_le (env : Env) {f f' ft ft' : Nat} (hf : f ≤ f') (ht : ft ≤ ft') (x : Int × XrefEntry) : St.Le (extractEntry env f ft x) (extractEntry env f' ft' x) := by
  unfold extractEntry
  split
  · exact (St.Le.refl _).bind fun _ => (liftX_le (getObject_le env hf _)).bind fun _ => (objectExtract_le (fun n => resolver_le env hf n) _ ht _).bind fun _ => St.Le.refl _
  · exact St.Le.refl _

theorem extractAll_le (env : Env) {f f' ft ft' : Nat} (hf : f ≤ f') (ht : ft ≤ ft') (l : List (Int × XrefEntry)) : St.Le (extractAll env f ft l) (extractAll env f' ft' l) :=
  shuffled_le l fun x _ => extractEntry_le env hf ht x

/-! ### The whole program -/

theorem res_le_bind {α β : Type} {x y : Res α} {k k' : α → Res β} (h : x = .oof ∨ x = y) (hk : ∀ a, k a = .oof ∨ k a = k' a) : (x >>= k) = .oof ∨ (x >>= k) = (y >>= k') := by
  rcases h with rfl | rfl
  · left; rfl
  · cases x with
    | ok a => exact hk a
    | panic w => right; rfl
    | oof => left; rfl

theorem parseBody_le (file : Bytes) (order : Order) (ext : Ext) (verbose : Option Bool) {f f' fx fx' ft ft' : Nat} (hf : f ≤ f') (hx : fx ≤ fx') (ht : ft ≤ ft') (pw : Bytes) :
    parseBody file order ext verbose f fx ft pw = .oof ∨ parseBody file order ext verbose f fx ft pw = parseBody file order ext verbose f' fx' ft' pw := by
  unfold parseBody
  refine res_le_bind (Or.inr rfl) fun _ => res_le_bind (load_le ⟨file, ext, verbose⟩ order hf hx pw LS.init) fun p => ?_
  obtain ⟨err, ls⟩ := p
  cases err with
  | some e => right; rfl
  | none => exact res_le_bind (extractAll_le (ls.env ⟨file, ext, verbose⟩) hf ht ls.xref ⟨ls.ps, {}, order.next.next⟩) fun _ => Or.inr rfl

theorem parse_deeper (sys : Sys) (ext : Ext) (verbose : Option Bool) {f f' fx fx' ft ft' : Nat} (hf : f ≤ f') (hx : fx ≤ fx') (ht : ft ≤ ft') (pw : Bytes)
    (h : (parse sys ext verbose f fx ft pw).outcome ≠ .diverged) : parse sys ext verbose f' fx' ft' pw = parse sys ext verbose f fx ft pw := by
  unfold parse at h ⊢
  cases hi : sys.input with
  | none => rfl
  | some file =>
    simp only [hi] at h ⊢
    split
    · rename_i hc
      simp only [hc, if_true] at h
      rcases parseBody_le file sys.order ext verbose hf hx ht pw with hb | hb
      · rw [hb] at h; exact absurd rfl h
      · rw [hb]
    · rfl

end Pdf
