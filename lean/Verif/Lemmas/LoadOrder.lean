import Verif.Lemmas.Emits
import Verif.Lemmas.Keys
import Verif.Lemmas.Getters
import Verif.Spec.Order
/-!
Two runs of `Load` that visit maps in different orders.
-/

namespace Pdf
open St Spec

/-! ### Reading an object uses the cross reference and the crypt filters as maps -/

/-- The same handler, with the crypt filters compared as maps. -/
structure SameSh (a b : SecHandler) : Prop where
  rest : b = { a with cryptFilters := b.cryptFilters }
  filters : ∀ k, a.cryptFilters.get? k = b.cryptFilters.get? k

theorem SameSh.refl (a : SecHandler) : SameSh a a := ⟨rfl, fun _ => rfl⟩

/-- The same surroundings, with maps compared as maps. -/
structure SameEnv (a b : Env) : Prop where
  file : b.file = a.file
  ext : b.ext = a.ext
  verbose : b.verbose = a.verbose
  xref : ∀ n, a.xref.get? n = b.xref.get? n
  sh : SameSh a.sh b.sh

section
variable {a b : Env} (h : SameEnv a b)
include h

theorem streamCrypt_same (rs : Resolver) (e : Bool) (d : Dict) (fl pl : List Obj) : streamCrypt rs a.sh e d fl pl = streamCrypt rs b.sh e d fl pl := by
  have h1 : b.sh.fileFilter = a.sh.fileFilter := by rw [h.sh.rest]
  have h2 : b.sh.streamFilter = a.sh.streamFilter := by rw [h.sh.rest]
  unfold streamCrypt
  simp only [h1, h2, h.sh.filters]

theorem getObjectF_same (rs : Resolver) (n : Int) : getObjectF a rs n = getObjectF b rs n := by
  have h1 : b.sh.stringFilter = a.sh.stringFilter := by rw [h.sh.rest]
  have h2 : ∀ e v, getStreamF a rs n e v = getStreamF b rs n e v := by
    intro e v
    unfold getStreamF
    simp only [h.file, h.ext, h.verbose, streamCrypt_same h]
  unfold getObjectF
  simp only [h.file, h.ext, h.verbose, h1, h2, h.xref]

theorem resolve_same : ∀ f, resolve a f = resolve b f
  | 0 => rfl
  | f + 1 => by
    funext seen n
    simp only [resolve, resolve_same f, getObjectF_same h]

theorem resolver_same (f : Nat) : resolver a f = resolver b f := by
  funext n; simp only [resolver, resolve_same h f]

theorem getObject_same (f : Nat) : getObject a f = getObject b f := by
  funext n; simp only [getObject, resolver_same h f, getObjectF_same h]

theorem extractEntry_same (f ft : Nat) : extractEntry a f ft = extractEntry b f ft := by
  funext x
  simp only [extractEntry, resolver_same h f, getObject_same h f, h.ext, h.verbose]

theorem extractAll_same (f ft : Nat) : extractAll a f ft = extractAll b f ft := by
  funext l
  simp only [extractAll, extractEntry_same h]

end

/-! ### Two runs -/

/-- When the first returns, so does the second, from whatever states; the results are related, and the
same errors are logged. -/
def Both {α β : Type} (x : M α) (y : M β) (R : α → β → Prop) : Prop :=
  ∀ s s' a t, x s = .ok (a, t) → ∃ b t' es, y s' = .ok (b, t') ∧ R a b ∧ t.log = s.log ++ es ∧ t'.log = s'.log ++ es

theorem Both.pure {α β : Type} {R : α → β → Prop} {a : α} {b : β} (h : R a b) : Both (pure a : M α) (pure b : M β) R := by
  intro s s' c t hc
  cases hc
  exact ⟨b, s', [], rfl, h, by simp, by simp⟩

theorem Both.bind {α β γ δ : Type} {x : M α} {y : M β} {R : α → β → Prop} {k : α → M γ} {k' : β → M δ} {Q : γ → δ → Prop} (hx : Both x y R)
    (hk : ∀ s a t b, x s = .ok (a, t) → R a b → Both (k a) (k' b) Q) : Both (x >>= k) (y >>= k') Q := by
  intro s s' c u hc
  obtain ⟨a, t, h1, h2⟩ := bind_ok hc
  obtain ⟨b, t', es, g1, g2, g3, g4⟩ := hx s s' a t h1
  obtain ⟨d, u', fs, e1, e2, e3, e4⟩ := hk s a t b h1 g2 t t' c u h2
  exact ⟨d, u', es ++ fs, by rw [bind_of_ok g1, e1], e2, by rw [e3, g3, List.append_assoc], by rw [e4, g4, List.append_assoc]⟩

theorem IsFixed.both {α : Type} {x : M α} (h : IsFixed x) : Both x x Eq := by
  intro s s' a t hx
  obtain ⟨r, hr⟩ := h
  have h1 := hr s
  have h2 := hr s'
  cases r with
  | ok p =>
    obtain ⟨c, es⟩ := p
    obtain ⟨u, e1, e2⟩ := h1
    obtain ⟨u', e3, e4⟩ := h2
    rw [hx] at e1
    cases e1
    exact ⟨_, u', es, e3, rfl, e2, e4⟩
  | panic w => rw [show x s = .panic w from h1] at hx; cases hx
  | oof => rw [show x s = .oof from h1] at hx; cases hx

theorem Both.fix {α γ δ : Type} {x : M α} {k : α → M γ} {k' : α → M δ} {Q : γ → δ → Prop} (hx : IsFixed x) (hk : ∀ s a t, x s = .ok (a, t) → Both (k a) (k' a) Q) :
    Both (x >>= k) (x >>= k') Q :=
  hx.both.bind fun s a t b h e => by cases e; exact hk s a t h

theorem Both.ite {α β : Type} {c : Prop} [Decidable c] {x y : M α} {x' y' : M β} {Q : α → β → Prop} (hx : Both x x' Q) (hy : Both y y' Q) :
    Both (if c then x else y) (if c then x' else y') Q := by
  by_cases h : c
  · rw [if_pos h, if_pos h]; exact hx
  · rw [if_neg h, if_neg h]; exact hy

/-! ### Crypt filters -/

/-- the filter that an entry of /CF describes -/
def entryFilter (ext : Ext) (sh : SecHandler) (pw : Bytes) : Obj → Res (Option CryptFilter)
  | .dict d =>
    match (Assoc.get? d b!"CFM").bind Obj.asName? with
    | some m =>
      let length := ((Assoc.get? d b!"Length").bind fun o => o.asNum?.map F64.toInt).getD sh.length
      if m = b!"None" then .ok (some .none)
      else if m = b!"V2" then computeKey ext sh pw length >>= fun key => .ok (some (.rc4 key))
      else if m = b!"AESV2" then computeKey ext sh pw length >>= fun key => .ok (some (.aes key))
      else .ok none
    | none => .ok none
  | _ => .ok none

/-- store it -/
def putFilter (m : Assoc Bytes CryptFilter) (k : Bytes) : Option CryptFilter → Assoc Bytes CryptFilter
  | some f => m.set k f
  | none => m

/-- method and length are given in place -/
def DirectEntry (e : Obj) : Prop := ∀ d : Dict, e = .dict d → ∀ n g, d.get? b!"CFM" ≠ some (.ref n g) ∧ d.get? b!"Length" ≠ some (.ref n g)

theorem loadCryptFilter_direct (ext : Ext) (rs : Resolver) (pw : Bytes) (sh : SecHandler) (k : Bytes) {e : Obj} (h : DirectEntry e) (s : PS) :
    loadCryptFilter ext rs pw sh k e s = (entryFilter ext sh pw e >>= fun f => .ok ({ sh with cryptFilters := putFilter sh.cryptFilters k f }, s)) := by
  cases e with
  | dict d =>
    have hn : Dict.getName rs d b!"CFM" s = .ok ((Assoc.get? d b!"CFM").bind Obj.asName?, s) := by
      cases hc : Assoc.get? d b!"CFM" with
      | none => exact Dict.getName_none s hc
      | some o => exact Dict.getName_direct s hc fun n g he => (h d rfl n g).1 (by rw [hc, he])
    have hl : Dict.getInt rs d b!"Length" s = .ok ((Assoc.get? d b!"Length").bind fun o => o.asNum?.map F64.toInt, s) := by
      cases hc : Assoc.get? d b!"Length" with
      | none => exact Dict.getInt_none s hc
      | some o => exact Dict.getInt_direct s hc fun n g he => (h d rfl n g).2 (by rw [hc, he])
    rw [loadCryptFilter, bind_of_ok hn, entryFilter]
    cases hm : (Assoc.get? d b!"CFM").bind Obj.asName? with
    | none => rfl
    | some m =>
      dsimp only
      rw [bind_of_ok hl]
      by_cases h1 : m = b!"None"
      · rw [if_pos h1, if_pos h1]; rfl
      rw [if_neg h1, if_neg h1]
      by_cases h2 : m = b!"V2"
      · rw [if_pos h2, if_pos h2]
        cases computeKey ext sh pw _ <;> rfl
      rw [if_neg h2, if_neg h2]
      by_cases h3 : m = b!"AESV2"
      · rw [if_pos h3, if_pos h3]
        cases computeKey ext sh pw _ <;> rfl
      rw [if_neg h3, if_neg h3]; rfl
  | _ => rfl

theorem entryFilter_sh (ext : Ext) (sh : SecHandler) (m : Assoc Bytes CryptFilter) (pw : Bytes) (e : Obj) :
    entryFilter ext { sh with cryptFilters := m } pw e = entryFilter ext sh pw e := rfl

theorem loadCryptFilters_direct (ext : Ext) (rs : SecHandler → Resolver) (pw : Bytes) (g : Obj → Option CryptFilter) : ∀ (l : List (Bytes × Obj)) (sh : SecHandler) (s : PS),
    (∀ p ∈ l, DirectEntry p.2) → (∀ p ∈ l, entryFilter ext sh pw p.2 = .ok (g p.2)) →
    loadCryptFilters ext rs pw l sh s = .ok ({ sh with cryptFilters := l.foldl (fun m p => putFilter m p.1 (g p.2)) sh.cryptFilters }, s)
  | [], sh, s, _, _ => rfl
  | (k, e) :: t, sh, s, hd, hg => by
    rw [loadCryptFilters]
    have h1 : loadCryptFilter ext (rs sh) pw sh k e s = .ok ({ sh with cryptFilters := putFilter sh.cryptFilters k (g e) }, s) := by
      rw [loadCryptFilter_direct ext _ pw sh k (hd _ List.mem_cons_self), hg _ List.mem_cons_self]; rfl
    rw [bind_of_ok h1]
    exact loadCryptFilters_direct ext rs pw g t _ s (fun p hp => hd p (List.mem_cons_of_mem _ hp)) fun p hp => hg p (List.mem_cons_of_mem _ hp)

theorem loadCryptFilters_each (ext : Ext) (rs : SecHandler → Resolver) (pw : Bytes) : ∀ (l : List (Bytes × Obj)) (sh : SecHandler) (s : PS) (r : SecHandler × PS),
    (∀ p ∈ l, DirectEntry p.2) → loadCryptFilters ext rs pw l sh s = .ok r → ∀ p ∈ l, ∃ f, entryFilter ext sh pw p.2 = .ok f
  | [], _, _, _, _, _ => fun p hp => by cases hp
  | (k, e) :: t, sh, s, r, hd, hr => by
    rw [loadCryptFilters] at hr
    obtain ⟨sh1, s1, h1, h2⟩ := bind_ok hr
    rw [loadCryptFilter_direct ext _ pw sh k (hd _ List.mem_cons_self)] at h1
    cases hf : entryFilter ext sh pw e with
    | panic w => rw [hf] at h1; cases h1
    | oof => rw [hf] at h1; cases h1
    | ok f =>
      rw [hf] at h1
      cases h1
      intro p hp
      rcases List.mem_cons.1 hp with rfl | hp
      · exact ⟨f, hf⟩
      · exact loadCryptFilters_each ext rs pw t _ _ _ (fun p hp => hd p (List.mem_cons_of_mem _ hp)) h2 p hp

theorem putFilters_get (g : Obj → Option CryptFilter) : ∀ (l : List (Bytes × Obj)), (l.map (·.1)).Nodup → ∀ (m : Assoc Bytes CryptFilter) (k : Bytes),
    (l.foldl (fun m p => putFilter m p.1 (g p.2)) m).get? k = ((Assoc.get? l k).bind g).or (m.get? k) := by
  intro l
  induction l with
  | nil => intro _ m k; rfl
  | cons p t ih =>
    intro hnd m k
    rw [List.map_cons, List.nodup_cons] at hnd
    rw [List.foldl_cons, ih hnd.2, Assoc.get?_cons]
    by_cases hk : p.1 = k
    · rw [if_pos hk, Assoc.get?_none_iff.2 (hk ▸ hnd.1)]
      show (putFilter m p.1 (g p.2)).get? k = (g p.2).or (m.get? k)
      cases g p.2 with
      | none => rfl
      | some f => rw [putFilter, ← hk, Assoc.get?_set_self]; rfl
    · rw [if_neg hk]
      congr 1
      cases g p.2 with
      | none => rfl
      | some f => exact Assoc.get?_set_ne _ _ hk

theorem loadCryptFilters_both (ext : Ext) (rs : SecHandler → Resolver) (pw : Bytes) (sh : SecHandler) {l l' : List (Bytes × Obj)} (hp : l.Perm l')
    (hnd : (l.map (·.1)).Nodup) (hd : ∀ p ∈ l, DirectEntry p.2) :
    Both (loadCryptFilters ext rs pw l sh) (loadCryptFilters ext rs pw l' sh) SameSh := by
  intro s s' a t h
  have he := loadCryptFilters_each ext rs pw l sh s _ hd h
  let g : Obj → Option CryptFilter := fun e => match entryFilter ext sh pw e with | .ok f => f | _ => none
  have hg : ∀ p ∈ l, entryFilter ext sh pw p.2 = .ok (g p.2) := by
    intro p hm
    obtain ⟨f, hf⟩ := he p hm
    simp only [g, hf]
  rw [loadCryptFilters_direct ext rs pw g l sh s hd hg] at h
  cases h
  refine ⟨_, s', [], loadCryptFilters_direct ext rs pw g l' sh s' (fun p hm => hd p (hp.mem_iff.2 hm)) (fun p hm => hg p (hp.mem_iff.2 hm)), ⟨rfl, fun k => ?_⟩, by simp, by simp⟩
  show Assoc.get? (l.foldl _ _) k = Assoc.get? (l'.foldl _ _) k
  rw [putFilters_get g l hnd, putFilters_get g l' ((hp.map _).nodup_iff.1 hnd), Assoc.get?_perm hp hnd]

theorem Cl.dictInt {rs : Resolver} (h : Cl rs IsFixed) (d : Dict) (k : Bytes) : IsFixed (Dict.getInt rs d k) :=
  h.bind (h.bind (h.dictObject d k) fun _ => h.pure _) fun _ => h.pure _
theorem Cl.dictBool {rs : Resolver} (h : Cl rs IsFixed) (d : Dict) (k : Bytes) : IsFixed (Dict.getBool rs d k) :=
  h.bind (h.dictObject d k) fun _ => h.pure _

section
variable {ext : Ext} {rs : SecHandler → Resolver} (hcl : ∀ sh, Cl (rs sh) IsFixed) (hsame : ∀ a b, SameSh a b → rs a = rs b)
include hcl

include hsame
theorem setFilters_both (o1 o2 : Order) (pw : Bytes) (enc : Dict) (sh : SecHandler)
    (hd : ∀ sh1 s1 cf s1', Dict.getDict (rs sh1) enc b!"CF" s1 = .ok (some cf, s1') → (cf.map (·.1)).Nodup ∧ ∀ p ∈ cf, DirectEntry p.2) :
    Both (setFilters ext rs o1 pw enc sh) (setFilters ext rs o2 pw enc sh) SameSh := by
  rw [setFilters, setFilters]
  dsimp only
  split
  · refine Both.fix ((hcl _).dictDict _ _) fun s cf t hs => ?_
    have hcf : ((cf.getD []).map (·.1)).Nodup ∧ ∀ p ∈ cf.getD [], DirectEntry p.2 := by
      cases cf with
      | none => exact ⟨List.nodup_nil, fun p hp => by cases hp⟩
      | some cf => exact hd _ _ _ _ hs
    have v1 := visited o1 (cf.getD [])
    have v2 := visited o2 (cf.getD [])
    refine (loadCryptFilters_both ext rs pw _ (v1.trans v2.symm) ((v1.map _).nodup_iff.2 hcf.1) fun p hp => hcf.2 p (v1.mem_iff.1 hp)).bind fun _ a _ b _ hab => ?_
    have named : ∀ (a b : SecHandler) (key : Bytes) (d d' : CryptFilter), SameSh a b → d' = d → Both (namedFilter (rs a) enc a key d) (namedFilter (rs b) enc b key d') Eq := by
      intro a b key d d' h hd
      rw [hd, ← hsame a b h, namedFilter, namedFilter]
      refine Both.fix ((hcl _).dictName _ _) fun _ o _ _ => ?_
      cases o with
      | none => exact .pure rfl
      | some n => exact .pure (by rw [h.filters])
    have hs1 : b.streamFilter = a.streamFilter := by rw [hab.rest]
    have hs2 : b.stringFilter = a.stringFilter := by rw [hab.rest]
    have hs3 : b.fileFilter = a.fileFilter := by rw [hab.rest]
    refine (named _ _ _ _ _ hab hs1).bind fun _ stm _ stm' _ e1 => ?_
    subst e1
    have hab2 : SameSh { a with streamFilter := stm } { b with streamFilter := stm } := ⟨by conv => lhs; rw [hab.rest], hab.filters⟩
    refine (named _ _ _ _ _ hab2 hs2).bind fun _ str _ str' _ e1 => ?_
    subst e1
    have hab3 : SameSh { a with streamFilter := stm, stringFilter := str } { b with streamFilter := stm, stringFilter := str } := ⟨by conv => lhs; rw [hab.rest], hab.filters⟩
    refine (named _ _ _ _ _ hab3 hs3).bind fun _ eef _ eef' _ e1 => ?_
    subst e1
    exact .pure ⟨by conv => lhs; rw [hab.rest], hab.filters⟩
  · exact .pure (.refl _)

theorem secInit_both (o1 o2 : Order) (pw : Bytes) (trailer : Dict) (sh : SecHandler) (hd : DirectFilters rs trailer) :
    Both (secInit ext rs o1 pw trailer sh) (secInit ext rs o2 pw trailer sh) fun p q => q.1 = p.1 ∧ SameSh p.2 q.2 := by
  have same : ∀ (e : Option EncErr) (a : SecHandler), (fun p q : Option EncErr × SecHandler => q.1 = p.1 ∧ SameSh p.2 q.2) (e, a) (e, a) := fun e a => ⟨rfl, .refl a⟩
  rw [secInit, secInit]
  refine Both.fix ((hcl _).dictDict _ _) fun s o t hs => ?_
  cases o with | none => exact .pure (same _ _) | some enc => ?_
  refine Both.fix ((hcl _).dictName _ _) fun _ o _ _ => ?_
  refine Both.ite (.pure (same _ _)) ?_
  refine Both.fix ((hcl _).dictInt _ _) fun _ o _ _ => ?_
  refine Both.ite (.pure (same _ _)) ?_
  refine Both.fix ((hcl _).dictInt _ _) fun _ o _ _ => ?_
  refine Both.ite (.pure (same _ _)) ?_
  refine Both.fix ?_ fun _ o _ _ => ?_
  · rw [lengthEntry]
    split
    · exact (hcl newSecurityHandler).pure _
    · exact (hcl _).dictInt _ _
  refine Both.fix ((hcl _).dictString _ _) fun _ o _ _ => ?_
  cases o with | none => exact .pure (same _ _) | some _ => ?_
  refine Both.fix ((hcl _).dictString _ _) fun _ o _ _ => ?_
  cases o with | none => exact .pure (same _ _) | some _ => ?_
  refine Both.fix ((hcl _).dictInt _ _) fun _ o _ _ => ?_
  cases o with | none => exact .pure (same _ _) | some _ => ?_
  refine Both.fix ((hcl _).dictBool _ _) fun _ o _ _ => ?_
  refine Both.fix ((hcl _).dictArray _ _) fun _ o _ _ => ?_
  cases o with | none => exact .pure (same _ _) | some _ => ?_
  refine Both.fix ((hcl _).arrString _ _) fun _ o _ _ => ?_
  cases o with | none => exact .pure (same _ _) | some _ => ?_
  refine Both.fix ((hcl newSecurityHandler).ofRes _) fun _ _ _ _ => ?_
  refine Both.fix ((hcl newSecurityHandler).ofRes _) fun _ _ _ _ => ?_
  refine Both.ite (.pure (same _ _)) ?_
  refine (setFilters_both hcl hsame o1 o2 pw enc _ ?_).bind fun _ a _ b _ hab => .pure ⟨rfl, hab⟩
  intro sh1 s1 cf s1' h
  obtain ⟨h1, h2⟩ := hd _ _ _ _ _ _ _ _ hs h
  exact ⟨h1, fun p hp d he => h2 p.1 d (by rw [← he]; exact hp)⟩

end

end Pdf
