import Verif.Lemmas.Only
import Verif.Lemmas.Getters
/-!
Scripts and URIs written by extraction.
-/

namespace Pdf
open Spec St

/-- `ws` has the scripts `js`, and the URLs `us` besides others. -/
def Covers (js us : List Bytes) (ws : List Write) : Prop := (scripts ws).Perm js ∧ ∃ rest, (urlsOf ws).Perm (us ++ rest)

theorem Covers.nil : Covers [] [] [] := ⟨.refl _, [], .refl _⟩

theorem Covers.append {j j' u u' : List Bytes} {ws ws' : List Write} (h : Covers j u ws) (h' : Covers j' u' ws') :
    Covers (j ++ j') (u ++ u') (ws ++ ws') := by
  obtain ⟨h1, r, h2⟩ := h
  obtain ⟨h1', r', h2'⟩ := h'
  refine ⟨?_, r ++ r', ?_⟩
  · rw [scripts, List.filterMap_append]; exact h1.append h1'
  · rw [urlsOf, List.filterMap_append]
    refine (h2.append h2').trans ?_
    rw [List.append_assoc, List.append_assoc]
    refine List.Perm.append_left _ ?_
    rw [← List.append_assoc, ← List.append_assoc]
    exact List.Perm.append_right _ List.perm_append_comm

theorem Covers.perm {j j' u u' : List Bytes} {ws : List Write} (h : Covers j u ws) (hj : j.Perm j') (hu : u.Perm u') : Covers j' u' ws := by
  obtain ⟨h1, r, h2⟩ := h
  exact ⟨h1.trans hj, r, h2.trans (hu.append_right _)⟩

theorem covers_quiet {ws : List Write} (h : ∀ w ∈ ws, w.kind = .errors ∨ w.kind ≠ .javascript) : Covers [] [] ws := by
  refine ⟨.of_eq (List.filterMap_eq_nil_iff.2 fun w hw => ?_), urlsOf ws, .refl _⟩
  cases w with
  | js b => rcases h _ hw with h | h
            · cases h
            · exact absurd rfl h
  | _ => rfl

/-- a step that writes no script -/
theorem post_covers {x : X Unit} (h : Only (fun k => k ≠ .javascript) x) : Post x fun _ ws => Covers [] [] ws :=
  h.mono fun _ _ hw => covers_quiet hw

theorem Covers.post_bind {x : X Unit} {k : Unit → X Unit} {j j' u u' : List Bytes} (hx : Post x fun _ ws => Covers j u ws) (hk : Post (k ()) fun _ ws => Covers j' u' ws) :
    Post (x >>= k) fun _ ws => Covers (j ++ j') (u ++ u') ws :=
  Post.bind hx fun _ ws h => hk.mono fun _ vs h' => h.append h'

section
variable {ext : Ext} {rs : Resolver} (hrs : ∀ n, LogFree (rs n)) {js : Dict → Option Bytes} {uri : Dict → Option Bytes}
include hrs

theorem dictJs_covers {d : Dict} {r : Option Bytes} (h : ScriptIs rs d r) : Post (dictJs rs d) fun _ ws => Covers r.toList [] ws := by
  have hcl := logFree_cl hrs
  rw [dictJs]
  refine Post.bind (Post.liftX (hcl.dictString _ _)) fun a ws ha => ?_
  have hq : Covers [] [] ws := covers_quiet fun w hw => .inl (ha.1 w hw)
  have put : ∀ b, Post (putJs b) fun _ vs => Covers [b] [] (ws ++ vs) := fun b =>
    (Post.putJs b).mono fun _ vs hv => by rw [hv]; exact hq.append (j' := [b]) (u' := []) ⟨.refl _, [], .refl _⟩
  cases h with
  | string h1 => rw [ha.2 _ h1]; exact put _
  | stream h1 h2 =>
    rw [ha.2 _ h1]
    refine Post.bind (Post.liftX (hcl.dictStream _ _)) fun c ws' hc => ?_
    rw [hc.2 _ h2]
    refine (Post.putJs _).mono fun _ vs hv => ?_
    have hq' : Covers [] [] ws' := covers_quiet fun w hw => .inl (hc.1 w hw)
    rw [hv]
    exact (hq.append (hq'.append (j' := [_]) (u' := []) ⟨.refl _, [], .refl _⟩))
  | none h1 h2 =>
    rw [ha.2 _ h1]
    refine Post.bind (Post.liftX (hcl.dictStream _ _)) fun c ws' hc => ?_
    rw [hc.2 _ h2]
    have hq' : Covers [] [] ws' := covers_quiet fun w hw => .inl (hc.1 w hw)
    exact Post.pure (by rw [List.append_nil]; exact hq.append hq')

theorem dictUri_covers (ext : Ext) {d : Dict} {u : Option Bytes} (h : Reads (Dict.getString rs d b!"URI") u) : Post (dictUri rs d) fun _ ws => Covers [] u.toList ws := by
  have hcl := logFree_cl hrs
  cases u with
  | none =>
    exact (post_covers ((only_xcl ext hrs _).dictUri (by simp) d)).mono fun _ _ h => h
  | some u =>
    rw [dictUri]
    refine Post.bind (Post.liftX (hcl.dictString _ _)) fun a ws ha => ?_
    rw [ha.2 _ h]
    refine (Post.putUrl u).mono fun _ vs hv => ?_
    rw [hv]
    exact Covers.append (covers_quiet fun w hw => .inl (ha.1 w hw)) ⟨.refl _, [], .refl _⟩

theorem dictExtract_covers (fuel : Nat) {d : Dict} (hj : ScriptIs rs d (js d)) (hu : Reads (Dict.getString rs d b!"URI") (uri d)) :
    Post (dictExtract ext rs fuel d) fun _ ws => Covers (js d).toList (uri d).toList ws := by
  have hx := only_xcl ext hrs (fun k => k ≠ .javascript)
  rw [dictExtract]
  have h7 := post_covers (hx.dictUrls (by simp) fuel d)
  have h6 := Covers.post_bind (k := fun _ => dictUrls rs fuel d) (dictUri_covers hrs ext hu) h7
  have h5 := Covers.post_bind (k := fun _ => dictUri rs d >>= fun _ => dictUrls rs fuel d) (post_covers (hx.dictPages (by simp) fuel d)) h6
  have h4 := Covers.post_bind (k := fun _ => dictPages rs fuel d >>= fun _ => dictUri rs d >>= fun _ => dictUrls rs fuel d) (dictJs_covers hrs hj) h5
  have h3 := Covers.post_bind (k := fun _ => dictJs rs d >>= fun _ => dictPages rs fuel d >>= fun _ => dictUri rs d >>= fun _ => dictUrls rs fuel d)
    (post_covers (hx.dictEmbedded (by simp) (by simp) (by simp) (by simp) fuel d)) h4
  have h2 := Covers.post_bind (k := fun _ => dictEmbedded ext rs fuel d >>= fun _ => dictJs rs d >>= fun _ => dictPages rs fuel d >>= fun _ => dictUri rs d >>= fun _ => dictUrls rs fuel d)
    (post_covers (hx.dictXfa (by simp) (by simp) d)) h3
  have h1 := Covers.post_bind (k := fun _ => dictXfa ext rs d >>= fun _ => dictEmbedded ext rs fuel d >>= fun _ => dictJs rs d >>= fun _ => dictPages rs fuel d >>= fun _ => dictUri rs d >>= fun _ => dictUrls rs fuel d)
    (post_covers (hx.dictActions (by simp) (by simp) (by simp) (by simp) d)) h2
  simpa using h1

end

/-- a list of steps that cover what `j` and `u` say -/
theorem runAll_covers {α : Type} (f : α → X Unit) (j u : α → List Bytes) : ∀ l : List α, (∀ a ∈ l, Post (f a) fun _ ws => Covers (j a) (u a) ws) →
    Post (runAll (l.map f)) fun _ ws => Covers (l.flatMap j) (l.flatMap u) ws := by
  intro l
  induction l with
  | nil => intro _; exact Post.pure Covers.nil
  | cons a t ih =>
    intro h
    exact Covers.post_bind (k := fun _ => runAll (t.map f)) (h a (by simp)) (ih fun b hb => h b (by simp [hb]))

theorem perm_map_inv {α β : Type} (f : α → β) : ∀ (l' : List β) (l : List α), l'.Perm (l.map f) → ∃ m : List α, m.Perm l ∧ l' = m.map f := by
  intro l'
  induction l' with
  | nil =>
    intro l h
    have : l.map f = [] := h.nil_eq.symm
    exact ⟨[], by rw [List.map_eq_nil_iff.1 this], rfl⟩
  | cons b t ih =>
    intro l h
    obtain ⟨a, ha, hab⟩ := List.mem_map.1 (h.mem_iff.1 (List.mem_cons_self))
    obtain ⟨l1, l2, hl⟩ := List.append_of_mem ha
    have hp : l.Perm (a :: (l1 ++ l2)) := by rw [hl]; exact List.perm_middle
    have h2 := h.trans (hp.map f)
    rw [List.map_cons, hab] at h2
    obtain ⟨m, hm, ht⟩ := ih _ h2.cons_inv
    exact ⟨a :: m, (hm.cons a).trans hp.symm, by rw [List.map_cons, hab, ht]⟩

theorem shuffle_covers {α : Type} (f : α → X Unit) (j u : α → List Bytes) (l : List α) (h : ∀ a ∈ l, Post (f a) fun _ ws => Covers (j a) (u a) ws) :
    Post (shuffle (l.map f) >>= fun l' => runAll l') fun _ ws => Covers (l.flatMap j) (l.flatMap u) ws :=
  (Post.shuffle (l.map f)).bind fun l' ws hp => by
    obtain ⟨m, hm, rfl⟩ := perm_map_inv f l' l hp.2
    rw [hp.1]
    exact (runAll_covers f j u m fun a ha => h a (hm.mem_iff.1 ha)).mono fun _ vs hv =>
      hv.perm (hm.flatMap_right _) (hm.flatMap_right _)

/-- the same, with the order chosen before the steps are formed -/
theorem shuffle_covers' {α : Type} (f : α → X Unit) (j u : α → List Bytes) (l : List α) (h : ∀ a ∈ l, Post (f a) fun _ ws => Covers (j a) (u a) ws) :
    Post (shuffle l >>= fun l' => runAll (l'.map f)) fun _ ws => Covers (l.flatMap j) (l.flatMap u) ws :=
  (Post.shuffle l).bind fun l' ws hp => by
    rw [hp.1]
    exact (runAll_covers f j u l' fun a ha => h a (hp.2.mem_iff.1 ha)).mono fun _ vs hv =>
      hv.perm (hp.2.flatMap_right _) (hp.2.flatMap_right _)

theorem extractVals_eq (ext : Ext) (rs : Resolver) (fuel : Nat) : ∀ l : List (Bytes × Obj), extractVals ext rs fuel l = l.map fun p => extractObj ext rs fuel p.2 := by
  intro l
  induction l with
  | nil => rw [extractVals]; rfl
  | cons p t ih => obtain ⟨k, v⟩ := p; rw [extractVals, ih]; rfl

theorem extractList_eq (ext : Ext) (rs : Resolver) (fuel : Nat) : ∀ l : List Obj, extractList ext rs fuel l = l.map (extractObj ext rs fuel) := by
  intro l
  induction l with
  | nil => rw [extractList]; rfl
  | cons v t ih => rw [extractList, ih]; rfl

theorem dictsInValues_eq : ∀ l : List (Bytes × Obj), dictsInValues l = l.flatMap fun p => dictsIn p.2 := by
  intro l
  induction l with
  | nil => rw [dictsInValues]; rfl
  | cons p t ih => obtain ⟨k, v⟩ := p; rw [dictsInValues, ih]; rfl

theorem dictsInList_eq : ∀ l : List Obj, dictsInList l = l.flatMap dictsIn := by
  intro l
  induction l with
  | nil => rw [dictsInList]; rfl
  | cons v t ih => rw [dictsInList, ih]; rfl

theorem filterMap_flatMap' {α β γ : Type} (f : α → List β) (g : β → Option γ) : ∀ l : List α, (l.flatMap f).filterMap g = l.flatMap fun a => (f a).filterMap g := by
  intro l
  induction l with
  | nil => rfl
  | cons a t ih => rw [List.flatMap_cons, List.filterMap_append, ih, List.flatMap_cons]

theorem filterMap_cons' {α β : Type} (g : α → Option β) (a : α) (l : List α) : (a :: l).filterMap g = (g a).toList ++ l.filterMap g := by
  rw [List.filterMap_cons]
  cases g a <;> rfl

section
variable {ext : Ext} {rs : Resolver} (hrs : ∀ n, LogFree (rs n)) {js : Dict → Option Bytes} {uri : Dict → Option Bytes}
  (hj : ∀ d, ScriptIs rs d (js d)) (hu : ∀ d, Reads (Dict.getString rs d b!"URI") (uri d))
include hrs hj hu

mutual
theorem extractObj_covers (fuel : Nat) : ∀ o, Post (extractObj ext rs fuel o) fun _ ws => Covers ((dictsIn o).filterMap js) ((dictsIn o).filterMap uri) ws
  | .dict d => by
    unfold extractObj dictsIn
    rw [extractVals_eq, dictsInValues_eq, filterMap_cons', filterMap_cons', filterMap_flatMap', filterMap_flatMap']
    refine Covers.post_bind (dictExtract_covers hrs fuel (hj d) (hu d)) ?_
    exact shuffle_covers _ _ _ d (extractVals_covers fuel d)
  | .arr l => by
    unfold extractObj dictsIn
    rw [extractList_eq, dictsInList_eq, filterMap_flatMap', filterMap_flatMap']
    exact runAll_covers _ _ _ l (extractList_covers fuel l)
  | .kw _ => by unfold extractObj dictsIn; exact Post.pure Covers.nil
  | .num _ => by unfold extractObj dictsIn; exact Post.pure Covers.nil
  | .name _ => by unfold extractObj dictsIn; exact Post.pure Covers.nil
  | .str _ => by unfold extractObj dictsIn; exact Post.pure Covers.nil
  | .ref _ _ => by unfold extractObj dictsIn; exact Post.pure Covers.nil
theorem extractVals_covers (fuel : Nat) : ∀ l : List (Bytes × Obj), ∀ p ∈ l, Post (extractObj ext rs fuel p.2) fun _ ws =>
    Covers ((dictsIn p.2).filterMap js) ((dictsIn p.2).filterMap uri) ws
  | [] => by intro p hp; cases hp
  | (k, v) :: t => by
    intro p hp
    rcases List.mem_cons.1 hp with hp | hp
    · rw [hp]; exact extractObj_covers fuel v
    · exact extractVals_covers fuel t p hp
theorem extractList_covers (fuel : Nat) : ∀ l : List Obj, ∀ o ∈ l, Post (extractObj ext rs fuel o) fun _ ws =>
    Covers ((dictsIn o).filterMap js) ((dictsIn o).filterMap uri) ws
  | [] => by intro p hp; cases hp
  | v :: t => by
    intro p hp
    rcases List.mem_cons.1 hp with hp | hp
    · rw [hp]; exact extractObj_covers fuel v
    · exact extractList_covers fuel t p hp
end
end

theorem flatMap_inUse {β : Type} (g : Int → List β) : ∀ l : List (Int × XrefEntry), (inUse l).flatMap g = l.flatMap fun p => if p.2.typ = 1 then g p.1 else [] := by
  intro l
  induction l with
  | nil => rfl
  | cons p t ih =>
    rw [List.flatMap_cons, ← ih, inUse, inUse]
    by_cases h : p.2.typ = 1
    · rw [List.filter_cons_of_pos (by simpa using h), if_pos h]; rfl
    · rw [List.filter_cons_of_neg (by simpa using h), if_neg h]; rfl

theorem extractAll_covers {env : Env} {f ft : Nat} {js uri : Dict → Option Bytes} (hj : ∀ d, ScriptIs (resolver env f) d (js d))
    (hu : ∀ d, Reads (Dict.getString (resolver env f) d b!"URI") (uri d)) {objs : Int → IndObj} (ho : ∀ n, Reads (getObject env f n) (objs n)) (l : List (Int × XrefEntry)) :
    Post (extractAll env f ft l) fun _ ws => Covers ((inUse l).flatMap fun n => (dictsOf (objs n)).filterMap js) ((inUse l).flatMap fun n => (dictsOf (objs n)).filterMap uri) ws := by
  have hrs : ∀ n, LogFree (resolver env f n) := resolver_lf env f
  rw [flatMap_inUse, flatMap_inUse, extractAll]
  refine shuffle_covers' _ _ _ l fun x _ => ?_
  rw [extractEntry]
  by_cases h : x.2.typ = 1
  · simp only [if_pos h]
    refine Post.bind (Post.ofRes (Q := fun _ ws => Covers [] [] ws) fun _ _ => Covers.nil) fun _ ws0 hw0 => ?_
    refine Post.bind (Post.liftX (getObject_lf env f x.1)) fun o ws ⟨hq, hr⟩ => ?_
    rw [hr _ (ho x.1)]
    have hq' : Covers [] [] ws := covers_quiet fun w hw => .inl (hq w hw)
    have h1 : Post (objectExtract env.ext (resolver env f) ft (objs x.1)) fun _ ws => Covers ((dictsOf (objs x.1)).filterMap js) ((dictsOf (objs x.1)).filterMap uri) ws := by
      rw [objectExtract, dictsOf]
      cases (objs x.1).value with
      | dict d => exact extractObj_covers hrs hj hu ft _
      | _ => exact Post.pure Covers.nil
    have h2 : Post (putRaw (objs x.1)) fun _ ws => Covers [] [] ws :=
      (Post.putRaw _).mono fun _ _ ⟨_, _, hw⟩ => by rw [hw]; exact covers_quiet (by simp [Write.kind])
    refine (Covers.post_bind h1 h2).mono fun _ vs hv => ?_
    have := hw0.append (hq'.append hv)
    simpa using this
  · simp only [if_neg h]
    exact Post.pure Covers.nil

/-! ### Strings given directly -/

/-- `ws` has the strings that `d` gives directly for /JS and /URI. -/
def HasOwn (d : Dict) (ws : List Write) : Prop :=
  (∀ b, d.get? b!"JS" = some (.str b) → b ∈ scripts ws) ∧ ∀ b, d.get? b!"URI" = some (.str b) → b ∈ urlsOf ws

theorem HasOwn.append {d : Dict} {ws vs : List Write} (h : HasOwn d ws) : HasOwn d (ws ++ vs) := by
  refine ⟨fun b hb => ?_, fun b hb => ?_⟩
  · rw [scripts, List.filterMap_append]; exact List.mem_append_left _ (h.1 b hb)
  · rw [urlsOf, List.filterMap_append]; exact List.mem_append_left _ (h.2 b hb)

theorem HasOwn.append' {d : Dict} {ws vs : List Write} (h : HasOwn d vs) : HasOwn d (ws ++ vs) := by
  refine ⟨fun b hb => ?_, fun b hb => ?_⟩
  · rw [scripts, List.filterMap_append]; exact List.mem_append_right _ (h.1 b hb)
  · rw [urlsOf, List.filterMap_append]; exact List.mem_append_right _ (h.2 b hb)

section
variable {ext : Ext} {rs : Resolver} (hrs : ∀ n, LogFree (rs n))
include hrs

theorem dictExtract_own (fuel : Nat) (d : Dict) : Post (dictExtract ext rs fuel d) fun _ ws => HasOwn d ws := by
  have hx := only_xcl ext hrs (fun _ => True)
  have any : ∀ {x : X Unit}, Only (fun _ => True) x → Post x fun _ _ => True := fun h => h.mono fun _ _ _ => trivial
  rw [dictExtract]
  refine Post.bind (any (hx.dictActions trivial trivial trivial trivial d)) fun _ _ _ => ?_
  refine Post.bind (any (hx.dictXfa trivial trivial d)) fun _ _ _ => ?_
  refine Post.bind (any (hx.dictEmbedded trivial trivial trivial trivial fuel d)) fun _ _ _ => ?_
  have hjs : Post (dictJs rs d) fun _ ws => ∀ b, d.get? b!"JS" = some (.str b) → b ∈ scripts ws := by
    by_cases h : ∃ b, d.get? b!"JS" = some (.str b)
    · obtain ⟨b, h⟩ := h
      refine (dictJs_covers hrs (ScriptIs.string (b := b) ?_)).mono fun _ ws hw b' hb' => ?_
      · intro s v s' hv
        rw [Dict.getString_direct _ h (by simp)] at hv
        cases hv; rfl
      · rw [h] at hb'
        cases hb'
        exact hw.1.mem_iff.2 (by simp)
    · exact (any (hx.dictJs trivial d)).mono fun _ _ _ b hb => absurd ⟨b, hb⟩ h
  have huri : Post (dictUri rs d) fun _ ws => ∀ b, d.get? b!"URI" = some (.str b) → b ∈ urlsOf ws := by
    by_cases h : ∃ b, d.get? b!"URI" = some (.str b)
    · obtain ⟨b, h⟩ := h
      refine (dictUri_covers hrs ext (u := some b) ?_).mono fun _ ws hw b' hb' => ?_
      · intro s v s' hv
        rw [Dict.getString_direct _ h (by simp)] at hv
        cases hv; rfl
      · rw [h] at hb'
        cases hb'
        obtain ⟨rest, hr⟩ := hw.2
        exact hr.mem_iff.2 (by simp)
    · exact (any (hx.dictUri trivial d)).mono fun _ _ _ b hb => absurd ⟨b, hb⟩ h
  refine Post.bind hjs fun _ w3 h3 => ?_
  refine Post.bind (any (hx.dictPages trivial fuel d)) fun _ w4 _ => ?_
  refine Post.bind huri fun _ w5 h5 => (any (hx.dictUrls trivial fuel d)).mono fun _ w6 _ => ?_
  refine HasOwn.append' (HasOwn.append' (HasOwn.append' ⟨fun b hb => ?_, fun b hb => ?_⟩))
  · rw [scripts, List.filterMap_append]; exact List.mem_append_left _ (h3 b hb)
  · rw [urlsOf, List.filterMap_append, List.filterMap_append, List.filterMap_append]
    exact List.mem_append_right _ (List.mem_append_right _ (List.mem_append_left _ (h5 b hb)))

/-- one after the other: what each step guarantees holds of all they write -/
theorem runAll_each {α : Type} (f : α → X Unit) (P : α → List Write → Prop) (h1 : ∀ a ws vs, P a ws → P a (ws ++ vs)) (h2 : ∀ a ws vs, P a vs → P a (ws ++ vs)) :
    ∀ l : List α, (∀ a ∈ l, Post (f a) fun _ ws => P a ws) → Post (runAll (l.map f)) fun _ ws => ∀ a ∈ l, P a ws := by
  intro l
  induction l with
  | nil => intro _; exact Post.pure (by simp)
  | cons a t ih =>
    intro h
    refine Post.bind (h a (by simp)) fun _ ws hw => (ih fun b hb => h b (by simp [hb])).mono fun _ vs hv b hb => ?_
    rcases List.mem_cons.1 hb with rfl | hb
    · exact h1 _ _ _ hw
    · exact h2 _ _ _ (hv b hb)

theorem shuffle_each {α : Type} (f : α → X Unit) (P : α → List Write → Prop) (h1 : ∀ a ws vs, P a ws → P a (ws ++ vs)) (h2 : ∀ a ws vs, P a vs → P a (ws ++ vs)) (l : List α)
    (h : ∀ a ∈ l, Post (f a) fun _ ws => P a ws) : Post (shuffle (l.map f) >>= fun l' => runAll l') fun _ ws => ∀ a ∈ l, P a ws :=
  (Post.shuffle (l.map f)).bind fun l' ws hp => by
    obtain ⟨m, hm, rfl⟩ := perm_map_inv f l' l hp.2
    rw [hp.1]
    exact (runAll_each hrs f P h1 h2 m fun a ha => h a (hm.mem_iff.1 ha)).mono fun _ vs hv a ha => hv a (hm.mem_iff.2 ha)

theorem shuffle_each' {α : Type} (f : α → X Unit) (P : α → List Write → Prop) (h1 : ∀ a ws vs, P a ws → P a (ws ++ vs)) (h2 : ∀ a ws vs, P a vs → P a (ws ++ vs)) (l : List α)
    (h : ∀ a ∈ l, Post (f a) fun _ ws => P a ws) : Post (shuffle l >>= fun l' => runAll (l'.map f)) fun _ ws => ∀ a ∈ l, P a ws :=
  (Post.shuffle l).bind fun l' ws hp => by
    rw [hp.1]
    exact (runAll_each hrs f P h1 h2 l' fun a ha => h a (hp.2.mem_iff.1 ha)).mono fun _ vs hv a ha => hv a (hp.2.mem_iff.2 ha)

mutual
theorem extractObj_own (fuel : Nat) : ∀ o, Post (extractObj ext rs fuel o) fun _ ws => ∀ d ∈ dictsIn o, HasOwn d ws
  | .dict d => by
    unfold extractObj dictsIn
    rw [extractVals_eq, dictsInValues_eq]
    refine Post.bind (dictExtract_own hrs fuel d) fun _ ws hw =>
      (shuffle_each hrs _ (fun (p : Bytes × Obj) ws => ∀ d ∈ dictsIn p.2, HasOwn d ws) (fun _ _ _ h d hd => (h d hd).append) (fun _ _ _ h d hd => (h d hd).append') d
        (extractVals_own fuel d)).mono fun _ vs hv e he => ?_
    rcases List.mem_cons.1 he with rfl | he
    · exact hw.append
    · obtain ⟨p, hp, he⟩ := List.mem_flatMap.1 he
      exact (hv p hp e he).append'
  | .arr l => by
    unfold extractObj dictsIn
    rw [extractList_eq, dictsInList_eq]
    refine (runAll_each hrs _ (fun (o : Obj) ws => ∀ d ∈ dictsIn o, HasOwn d ws) (fun _ _ _ h d hd => (h d hd).append) (fun _ _ _ h d hd => (h d hd).append') l
      (extractList_own fuel l)).mono fun _ vs hv e he => ?_
    obtain ⟨p, hp, he⟩ := List.mem_flatMap.1 he
    exact hv p hp e he
  | .kw _ => by unfold extractObj dictsIn; exact Post.pure (by simp)
  | .num _ => by unfold extractObj dictsIn; exact Post.pure (by simp)
  | .name _ => by unfold extractObj dictsIn; exact Post.pure (by simp)
  | .str _ => by unfold extractObj dictsIn; exact Post.pure (by simp)
  | .ref _ _ => by unfold extractObj dictsIn; exact Post.pure (by simp)
theorem extractVals_own (fuel : Nat) : ∀ l : List (Bytes × Obj), ∀ p ∈ l, Post (extractObj ext rs fuel p.2) fun _ ws => ∀ d ∈ dictsIn p.2, HasOwn d ws
  | [] => by intro p hp; cases hp
  | (k, v) :: t => by
    intro p hp
    rcases List.mem_cons.1 hp with hp | hp
    · rw [hp]; exact extractObj_own fuel v
    · exact extractVals_own fuel t p hp
theorem extractList_own (fuel : Nat) : ∀ l : List Obj, ∀ o ∈ l, Post (extractObj ext rs fuel o) fun _ ws => ∀ d ∈ dictsIn o, HasOwn d ws
  | [] => by intro p hp; cases hp
  | v :: t => by
    intro p hp
    rcases List.mem_cons.1 hp with hp | hp
    · rw [hp]; exact extractObj_own fuel v
    · exact extractList_own fuel t p hp
end
end

theorem post_lift_run {α : Type} {x : M α} (h : LogFree x) : Post (liftX x) fun a _ => ∃ s s', x s = .ok (a, s') := by
  intro s a s' hr
  obtain ⟨ws, h1, -⟩ := Post.liftX h s a s' hr
  refine ⟨ws, h1, s.ps, s'.ps, ?_⟩
  rw [liftX] at hr
  cases hx : x s.ps with
  | ok p => rw [hx] at hr; cases hr; rfl
  | panic w => rw [hx] at hr; cases hr
  | oof => rw [hx] at hr; cases hr

/-- The object as extraction read it, and its strings among what was written. -/
def ReadAs (env : Env) (f : Nat) (x : Int × XrefEntry) (ws : List Write) : Prop :=
  x.2.typ = 1 → ∃ s s' o, getObject env f x.1 s = .ok (o, s') ∧ ∀ d ∈ dictsOf o, HasOwn d ws

theorem extractAll_own (env : Env) (f ft : Nat) (l : List (Int × XrefEntry)) : Post (extractAll env f ft l) fun _ ws => ∀ x ∈ l, ReadAs env f x ws := by
  have hrs : ∀ n, LogFree (resolver env f n) := resolver_lf env f
  rw [extractAll]
  refine shuffle_each' hrs _ (ReadAs env f) ?_ ?_ l fun x _ => ?_
  · rintro x ws vs h hx
    obtain ⟨s, s', o, h1, h2⟩ := h hx
    exact ⟨s, s', o, h1, fun d hd => (h2 d hd).append⟩
  · rintro x ws vs h hx
    obtain ⟨s, s', o, h1, h2⟩ := h hx
    exact ⟨s, s', o, h1, fun d hd => (h2 d hd).append'⟩
  · rw [extractEntry]
    by_cases h : x.2.typ = 1
    · simp only [if_pos h]
      refine Post.bind (Post.ofRes (Q := fun _ _ => True) fun _ _ => trivial) fun _ ws0 _ => ?_
      refine Post.bind (post_lift_run (getObject_lf env f x.1)) fun o ws ⟨s, s', hr⟩ => ?_
      have h1 : Post (objectExtract env.ext (resolver env f) ft o) fun _ ws => ∀ d ∈ dictsOf o, HasOwn d ws := by
        rw [objectExtract, dictsOf]
        cases o.value with
        | dict d => exact extractObj_own hrs ft _
        | _ => exact Post.pure (by simp)
      refine Post.bind h1 fun _ vs hv => (Post.putRaw _).mono fun _ us _ _ => ⟨s, s', o, hr, fun d hd => ?_⟩
      exact (((hv d hd).append).append').append'
    · simp only [if_neg h]
      exact Post.pure fun hx => absurd hx h

end Pdf
