import Verif.Lemmas.Walk
import Verif.Lemmas.Post
import Verif.Lemmas.Fixed
import Verif.Lemmas.Assoc
/-!
Extraction steps that write the same things, up to the order, from every state.
-/

namespace Pdf
open St Spec

/-- A text is empty or ends with a line feed. -/
def Ended (w : Write) : Prop := match w with
  | .text b => b = [] ∨ b.getLast? = some 10
  | _ => True

/-- The write, where an object is printed as its value itself. -/
def Write.plain : Write → Write
  | .raw o _ => .raw o o.value
  | w => w

/-- An object is printed as its value up to the order of entries. -/
def Faithful : Write → Prop
  | .raw o v => Reordered o.value v
  | _ => True

/-- The same writes in some order, up to the order of the entries of printed dictionaries. -/
def SameWrites (vs ws : List Write) : Prop := (∀ w ∈ vs, Faithful w) ∧ (vs.map Write.plain).Perm (ws.map Write.plain)

theorem SameWrites.append {a b c d : List Write} (h : SameWrites a b) (h' : SameWrites c d) : SameWrites (a ++ c) (b ++ d) :=
  ⟨fun w hw => (List.mem_append.1 hw).elim (h.1 w) (h'.1 w), by rw [List.map_append, List.map_append]; exact h.2.append h'.2⟩

theorem SameWrites.trans {a b c : List Write} (h : SameWrites a b) (h' : b.Perm c) : SameWrites a c := ⟨h.1, h.2.trans (h'.map _)⟩

theorem SameWrites.refl {a : List Write} (h : ∀ w ∈ a, Faithful w) : SameWrites a a := ⟨h, .refl _⟩

theorem faithful_errors (es : List Err) : ∀ w ∈ es.map Write.error, Faithful w := by
  intro w hw
  obtain ⟨e, -, rfl⟩ := List.mem_map.1 hw
  trivial

/-- From every state the step returns `a` after writing `ws` in some order, or (`none`) it never
returns. -/
def Emits {α : Type} (x : X α) : Option (α × List Write) → Prop
  | none => ∀ s p, x s ≠ .ok p
  | some (a, ws) => (∀ w ∈ ws, Ended w) ∧ ∀ s, ∃ s' vs, x s = .ok (a, s') ∧ SameWrites vs ws ∧ Wrote vs s s'

/-- There is such a description, where writes satisfy `K`. -/
def Steady {α : Type} (x : X α) : Prop := ∃ r, Emits x r

theorem Emits.bind {α β : Type} {x : X α} {k : α → X β} {a : α} {ws : List Write} (hx : Emits x (some (a, ws))) {r : Option (β × List Write)} (hk : Emits (k a) r) :
    Emits (x >>= k) (r.map fun q => (q.1, ws ++ q.2)) := by
  cases r with
  | none =>
    intro s p hp
    obtain ⟨s', vs, h1, -, -⟩ := hx.2 s
    rw [bind_of_ok h1] at hp
    exact hk s' p hp
  | some q =>
    obtain ⟨b, us⟩ := q
    refine ⟨fun w hw => (List.mem_append.1 hw).elim (hx.1 w) (hk.1 w), fun s => ?_⟩
    obtain ⟨s', vs, h1, h2, h3⟩ := hx.2 s
    obtain ⟨s2, vs2, h4, h5, h6⟩ := hk.2 s'
    exact ⟨s2, vs ++ vs2, by rw [bind_of_ok h1, h4], h2.append h5, h3.trans h6⟩

theorem Emits.bind_none {α β : Type} {x : X α} {k : α → X β} (hx : Emits x none) : Emits (x >>= k) none := by
  intro s p hp
  obtain ⟨a, t, h1, -⟩ := bind_ok hp
  exact hx s _ h1

theorem Steady.bind {α β : Type} {x : X α} {k : α → X β} (hx : Steady x) (hk : ∀ a, Steady (k a)) : Steady (x >>= k) := by
  obtain ⟨r, hr⟩ := hx
  cases r with
  | none => exact ⟨_, hr.bind_none⟩
  | some p =>
    obtain ⟨a, ws⟩ := p
    obtain ⟨r', hr'⟩ := hk a
    exact ⟨_, hr.bind hr'⟩

theorem Steady.pure {α : Type} (a : α) : Steady (pure a : X α) :=
  ⟨some (a, []), (fun w hw => by cases hw), fun s => ⟨s, [], rfl, .refl (fun w hw => by cases hw), .refl s⟩⟩

theorem Steady.ofRes {α : Type} (x : Res α) : Steady (St.ofRes x : X α) := by
  cases x with
  | ok a => exact .pure a
  | panic w => exact ⟨none, fun s p hp => by cases hp⟩
  | oof => exact ⟨none, fun s p hp => by cases hp⟩

/-- A step that always returns, with fixed writes. -/
theorem Steady.of_post {x : X Unit} {ws : List Write} (he : ∀ w ∈ ws, Ended w ∧ Faithful w) (h : Post x fun _ vs => vs = ws) (ht : ∀ s, ∃ s', x s = .ok ((), s')) : Steady x := by
  refine ⟨some ((), ws), fun w hw => (he w hw).1, fun s => ?_⟩
  obtain ⟨s', hs⟩ := ht s
  obtain ⟨vs, h1, h2⟩ := h s () s' hs
  exact ⟨s', vs, hs, by rw [h2]; exact .refl fun w hw => (he w hw).2, h1⟩

theorem Wrote.errors_only {s : XS} {ps : PS} {es : List Err} (he : ps.log = s.ps.log ++ es) : Wrote (es.map .error) s { s with ps := ps } := by
  have h : ∀ (f : Write → Bytes), (∀ e, f (.error e) = []) → (es.map Write.error).flatMap f = [] := by
    intro f hf
    rw [List.flatMap_eq_nil_iff]
    intro w hw
    obtain ⟨e, -, rfl⟩ := List.mem_map.1 hw
    exact hf e
  constructor
  · rw [h _ (fun _ => rfl)]; simp
  · rw [h _ (fun _ => rfl)]; simp
  · rw [h _ (fun _ => rfl)]; simp
  · rw [h _ (fun _ => rfl)]; simp
  · rw [h _ (fun _ => rfl)]; simp
  · rw [h _ (fun _ => rfl)]; simp
  · show ps.log = _
    rw [he]
    congr 1
    clear he h
    induction es with
    | nil => rfl
    | cons e t ih => rw [List.map_cons, List.flatMap_cons, ← ih]; rfl
  · show s.out.dumped = _
    generalize s.out.dumped = m
    clear he h
    induction es with
    | nil => rfl
    | cons e t ih => exact ih

theorem Fixed.emits {α : Type} {x : M α} {r : Res (α × List Err)} (h : Fixed x r) :
    Emits (liftX x) (match r with | .ok (a, es) => some (a, es.map .error) | _ => none) := by
  cases r with
  | ok p =>
    obtain ⟨a, es⟩ := p
    refine ⟨fun w hw => ?_, fun s => ?_⟩
    · obtain ⟨e, -, rfl⟩ := List.mem_map.1 hw
      trivial
    obtain ⟨t, h1, h2⟩ := h s.ps
    exact ⟨{ s with ps := t }, es.map .error, by rw [liftX, h1]; rfl, .refl (faithful_errors es), Wrote.errors_only h2⟩
  | panic w =>
    intro s p hp
    have h1 : x s.ps = .panic w := h s.ps
    rw [liftX, h1] at hp
    cases hp
  | oof =>
    intro s p hp
    have h1 : x s.ps = .oof := h s.ps
    rw [liftX, h1] at hp
    cases hp

/-- the outcome of a read does not depend on the state -/
def IsFixed {α : Type} (x : M α) : Prop := ∃ r, Fixed x r

theorem isFixed_cl {env : Env} (hoff : NonnegOffsets env) (f : Nat) : Cl (resolver env f) IsFixed where
  pure := fun a => ⟨_, Fixed.pure a⟩
  bind := by
    intro α β x k ⟨r, hr⟩ hk
    obtain ⟨g, hg⟩ := Classical.axiomOfChoice hk
    exact ⟨_, hr.bind hg⟩
  ofRes := fun x => ⟨_, Fixed.ofRes x⟩
  rs := fun n => resolver_fixed hoff f n

/-! ### Loops over maps -/

/-- what the steps of a list write, in order -/
def sumEmits : List (Option (Unit × List Write)) → Option (Unit × List Write)
  | [] => some ((), [])
  | none :: _ => none
  | some (_, ws) :: t => (sumEmits t).map fun q => ((), ws ++ q.2)

theorem runAll_emits {α : Type} (f : α → X Unit) (g : α → Option (Unit × List Write)) : ∀ l : List α, (∀ a ∈ l, Emits (f a) (g a)) → Emits (runAll (l.map f)) (sumEmits (l.map g)) := by
  intro l
  induction l with
  | nil => intro _; exact ⟨(fun w hw => by cases hw), fun s => ⟨s, [], rfl, .refl (fun w hw => by cases hw), .refl s⟩⟩
  | cons a t ih =>
    intro hl
    have h1 := hl a (by simp)
    have h2 := ih fun b hb => hl b (by simp [hb])
    rw [List.map_cons, List.map_cons, runAll]
    cases hg : g a with
    | none => rw [hg] at h1; exact h1.bind_none
    | some p =>
      obtain ⟨u, ws⟩ := p
      rw [hg] at h1
      exact h1.bind (k := fun _ => runAll (t.map f)) h2

/-- Equal up to the order of the writes. -/
def SameEmits : Option (Unit × List Write) → Option (Unit × List Write) → Prop
  | none, none => True
  | some p, some q => p.2.Perm q.2
  | _, _ => False

theorem SameEmits.refl : ∀ r, SameEmits r r
  | none => trivial
  | some p => List.Perm.refl p.2

theorem SameEmits.trans : ∀ {r q t}, SameEmits r q → SameEmits q t → SameEmits r t
  | none, none, none, _, _ => trivial
  | some _, some _, some _, h1, h2 => List.Perm.trans h1 h2
  | none, some _, _, h, _ => h.elim
  | some _, none, _, h, _ => h.elim
  | none, none, some _, _, h => h.elim
  | some _, some _, none, _, h => h.elim

theorem sumEmits_perm {l l' : List (Option (Unit × List Write))} (h : l.Perm l') : SameEmits (sumEmits l) (sumEmits l') := by
  induction h with
  | nil => exact List.Perm.refl _
  | cons x h ih =>
    rename_i l1 l2
    cases x with
    | none => trivial
    | some p =>
      simp only [sumEmits]
      cases h1 : sumEmits l1 <;> cases h2 : sumEmits l2 <;> rw [h1, h2] at ih
      · trivial
      · exact ih.elim
      · exact ih.elim
      · exact List.Perm.append (.refl _) ih
  | swap x y l =>
    cases x with
    | none => cases y <;> trivial
    | some p =>
      cases y with
      | none => trivial
      | some q =>
        simp only [sumEmits]
        cases sumEmits l with
        | none => trivial
        | some t =>
          show (q.2 ++ (p.2 ++ t.2)).Perm (p.2 ++ (q.2 ++ t.2))
          rw [← List.append_assoc, ← List.append_assoc]
          exact List.Perm.append List.perm_append_comm (.refl _)
  | trans _ _ h1 h2 => exact h1.trans h2

theorem Emits.same {x : X Unit} {r q : Option (Unit × List Write)} (h : Emits x r) (hs : SameEmits r q) : Emits x q := by
  cases r with
  | none =>
    cases q with
    | none => exact h
    | some _ => exact hs.elim
  | some p =>
    cases q with
    | none => exact hs.elim
    | some t =>
      refine ⟨fun w hw => h.1 w (hs.mem_iff.2 hw), fun s => ?_⟩
      obtain ⟨s', vs, h1, h2, h3⟩ := h.2 s
      exact ⟨s', vs, h1, h2.trans hs, h3⟩

theorem Emits.shuffle {α : Type} (l : List α) (f : α → X Unit) (h : ∀ a ∈ l, Steady (f a)) : ∃ r, ∀ m : List α, m.Perm l → Emits (shuffle m >>= fun l' => runAll (l'.map f)) r := by
  have h' : ∀ a, ∃ r, a ∈ l → Emits (f a) r := by
    intro a
    by_cases ha : a ∈ l
    · obtain ⟨r, hr⟩ := h a ha; exact ⟨r, fun _ => hr⟩
    · exact ⟨none, fun h => absurd h ha⟩
  obtain ⟨g, hg⟩ := Classical.axiomOfChoice h'
  refine ⟨sumEmits (l.map g), fun m hm => ?_⟩
  have key : ∀ s : XS, ∃ l' : List α, l'.Perm l ∧ Pdf.shuffle m s = .ok (l', { s with order := s.order.next }) :=
    fun s => ⟨_, (shuffled m (s.order.perm 0 _)).trans hm, rfl⟩
  have h1 : ∀ l' : List α, l'.Perm l → Emits (runAll (l'.map f)) (sumEmits (l.map g)) := by
    intro l' hp
    refine (runAll_emits f g l' fun a ha => hg a (hp.mem_iff.1 ha)).same (sumEmits_perm (hp.map g))
  cases hr : sumEmits (l.map g) with
  | none =>
    intro s p hp
    obtain ⟨l', hl, hs⟩ := key s
    rw [bind_of_ok hs] at hp
    have h2 := h1 l' hl
    rw [hr] at h2
    exact h2 _ _ hp
  | some q =>
    refine ⟨?_, fun s => ?_⟩
    · have h2 := h1 l (.refl l)
      rw [hr] at h2
      exact h2.1
    obtain ⟨l', hl, hs⟩ := key s
    have h2 := h1 l' hl
    rw [hr] at h2
    obtain ⟨s', vs, h3, h4, h5⟩ := h2.2 { s with order := s.order.next }
    exact ⟨s', vs, by rw [bind_of_ok hs, h3], h4, ⟨h5.commands, h5.files, h5.javascript, h5.text, h5.urls, h5.raw, h5.errors, h5.dumped⟩⟩

theorem Steady.shuffle {α : Type} (l : List α) (f : α → X Unit) (h : ∀ a ∈ l, Steady (f a)) : Steady (Pdf.shuffle l >>= fun l' => runAll (l'.map f)) := by
  obtain ⟨r, hr⟩ := Emits.shuffle l f h
  exact ⟨r, hr l (.refl l)⟩

/-! ### Fonts -/

/-- The same fonts under every name. -/
def SameFonts (m m' : Assoc Bytes Font) : Prop := ∀ k, m.get? k = m'.get? k

theorem pageLoop_same {c : Bytes} {m m' : Assoc Bytes Font} (h : SameFonts m m') : ∀ f s mode out, pageLoop c m f s mode out = pageLoop c m' f s mode out := by
  intro f
  induction f with
  | zero => intro s mode out; rfl
  | succ f ih =>
    intro s mode out
    simp only [pageLoop, ih, h _]

theorem pageText_same {c : Bytes} {m m' : Assoc Bytes Font} (h : SameFonts m m') : pageText m c = pageText m' c := pageLoop_same h _ _ _ _

theorem pageLoop_ended {c : Bytes} {m : Assoc Bytes Font} : ∀ f s mode out b, (out = [] ∨ out.getLast? = some 10) → pageLoop c m f s mode out = .ok b →
    b = [] ∨ b.getLast? = some 10 := by
  intro f
  induction f with
  | zero => intro s mode out b _ h; cases h
  | succ f ih =>
    intro s mode out b ho h
    rw [pageLoop] at h
    cases hc : readCommand c s with
    | panic w => rw [hc] at h; cases h
    | oof => rw [hc] at h; cases h
    | ok p =>
      obtain ⟨⟨command, operands, err⟩, s'⟩ := p
      rw [hc] at h
      cases mode with
      | none =>
        dsimp only [Bind.bind, Res.bind] at h
        split at h
        · cases h; exact ho
        · split at h
          · exact ih _ _ _ _ ho h
          · exact ih _ _ _ _ ho h
      | some font =>
        have hd : ∀ str k, (font.decode str >>= fun t => pageLoop c m f s' k (out ++ t ++ b!"\n")) = .ok b → b = [] ∨ b.getLast? = some 10 := by
          intro str k hk
          cases hf : font.decode str with
          | panic w => rw [hf] at hk; cases hk
          | oof => rw [hf] at hk; cases hk
          | ok t =>
            rw [hf] at hk
            refine ih _ _ _ _ (.inr ?_) hk
            simp
        dsimp only [Bind.bind, Res.bind] at h
        split at h
        · exact ih _ _ _ _ ho h
        split at h
        · exact ih _ _ _ _ ho h
        split at h
        · exact hd _ _ h
        split at h
        · exact hd _ _ h
        · exact ih _ _ _ _ ho h

theorem pageText_ended {c : Bytes} {m : Assoc Bytes Font} {b : Bytes} (h : pageText m c = .ok b) : b = [] ∨ b.getLast? = some 10 :=
  pageLoop_ended _ _ _ _ _ (.inl rfl) h

theorem pageParts_same {rs : Resolver} {m m' : Assoc Bytes Font} (h : SameFonts m m') (a : List Obj) : ∀ n i, pageParts rs m a n i = pageParts rs m' a n i := by
  intro n
  induction n with
  | zero => intro i; rfl
  | succ n ih => intro i; simp only [pageParts, ih, pageText_same h]

theorem pageBody_same {rs : Resolver} {m m' : Assoc Bytes Font} (h : SameFonts m m') (d : Dict) : pageBody rs d m = pageBody rs d m' := by
  simp only [pageBody, pageText_same h, pageParts_same h]

/-- One font of a page, page.go:19-20. -/
def fontOf (rs : Resolver) (fonts : Dict) (k : Bytes) : M Font := do
  let info := (← Dict.getDict rs fonts k).getD []
  let cmap := ((← Dict.getStream rs info b!"ToUnicode").getD none).getD []
  St.ofRes (newFont cmap)

theorem pageFonts_cons (rs : Resolver) (fonts : Dict) (k : Bytes) (t : List Bytes) (acc : Assoc Bytes Font) :
    pageFonts rs fonts (k :: t) acc = (fontOf rs fonts k >>= fun font => pageFonts rs fonts t (acc.set k font)) := by
  rw [pageFonts, fontOf]
  funext s
  simp only [bind_run]
  cases Dict.getDict rs fonts k s with
  | ok p =>
    show (Dict.getStream rs _ _ p.2 >>= _) = ((Dict.getStream rs _ _ p.2 >>= _) >>= _)
    cases Dict.getStream rs (p.1.getD []) b!"ToUnicode" p.2 with
    | ok q =>
      show (St.ofRes (newFont _) q.2 >>= _) = (St.ofRes (newFont _) q.2 >>= _)
      rfl
    | panic w => rfl
    | oof => rfl
  | panic w => rfl
  | oof => rfl

theorem pageFonts_ok {rs : Resolver} {fonts : Dict} {font : Bytes → Font} {errs : Bytes → List Err} : ∀ (ks : List Bytes) (acc : Assoc Bytes Font),
    (∀ k ∈ ks, Fixed (fontOf rs fonts k) (.ok (font k, errs k))) →
    Fixed (pageFonts rs fonts ks acc) (.ok (ks.foldl (fun m k => m.set k (font k)) acc, ks.flatMap errs)) := by
  intro ks
  induction ks with
  | nil => intro acc _; exact Fixed.pure acc
  | cons k t ih =>
    intro acc h s
    obtain ⟨s1, h1, h2⟩ := h k (by simp) s
    obtain ⟨s2, h3, h4⟩ := ih (acc.set k (font k)) (fun j hj => h j (by simp [hj])) s1
    refine ⟨s2, ?_, by rw [h4, h2, List.flatMap_cons, List.append_assoc]⟩
    rw [pageFonts_cons, bind_of_ok h1, h3]; rfl

theorem pageFonts_get (font : Bytes → Font) : ∀ (ks : List Bytes) (acc : Assoc Bytes Font) (j : Bytes),
    (ks.foldl (fun m k => m.set k (font k)) acc).get? j = if j ∈ ks then some (font j) else acc.get? j := by
  intro ks
  induction ks with
  | nil => intro acc j; simp
  | cons k t ih =>
    intro acc j
    rw [List.foldl_cons, ih]
    by_cases hj : j ∈ t
    · rw [if_pos hj, if_pos (by simp [hj])]
    · rw [if_neg hj]
      by_cases hk : j = k
      · rw [hk, Assoc.get?_set_self, if_pos (by simp)]
      · rw [Assoc.get?_set_ne _ _ (Ne.symm hk), if_neg (by simp [hj, hk])]

theorem pageFonts_fails {rs : Resolver} {fonts : Dict} {k : Bytes} (hk : ∀ s p, fontOf rs fonts k s ≠ .ok p) : ∀ (ks : List Bytes), k ∈ ks → ∀ acc s p, pageFonts rs fonts ks acc s ≠ .ok p := by
  intro ks
  induction ks with
  | nil => intro h; cases h
  | cons j t ih =>
    intro h acc s p hp
    rw [pageFonts_cons] at hp
    obtain ⟨a, s1, h1, h2⟩ := bind_ok hp
    rcases List.mem_cons.1 h with h | h
    · rw [← h] at h1; exact hk _ _ h1
    · exact ih h _ _ _ h2

theorem Steady.fonts {rs : Resolver} (hcl : Cl rs IsFixed) (fonts d : Dict) (h : ∀ m, Steady (pageBody rs d m)) :
    Steady (Pdf.shuffle fonts.keys >>= fun ks => liftX (pageFonts rs fonts ks []) >>= pageBody rs d) := by
  have hf : ∀ k, IsFixed (fontOf rs fonts k) := fun k =>
    hcl.bind (hcl.dictDict _ _) fun _ => hcl.bind (hcl.dictStream _ _) fun _ => hcl.ofRes _
  obtain ⟨g, hg⟩ := Classical.axiomOfChoice hf
  have key : ∀ s : XS, ∃ l' : List Bytes, l'.Perm fonts.keys ∧ Pdf.shuffle fonts.keys s = .ok (l', { s with order := s.order.next }) :=
    fun s => ⟨_, shuffled _ (s.order.perm 0 _), rfl⟩
  by_cases hall : ∀ k ∈ fonts.keys, ∃ p, g k = .ok p
  · let font : Bytes → Font := fun k => match g k with | .ok p => p.1 | _ => {}
    let errs : Bytes → List Err := fun k => match g k with | .ok p => p.2 | _ => []
    have hfix : ∀ k ∈ fonts.keys, Fixed (fontOf rs fonts k) (.ok (font k, errs k)) := by
      intro k hk
      obtain ⟨p, hp⟩ := hall k hk
      have h1 := hg k
      simp only [font, errs]
      rw [hp] at h1 ⊢
      exact h1
    let fin : List Bytes → Assoc Bytes Font := fun ks => ks.foldl (fun m k => m.set k (font k)) []
    have hsame : ∀ ks : List Bytes, ks.Perm fonts.keys → SameFonts (fin ks) (fin fonts.keys) := by
      intro ks hp j
      simp only [fin]
      rw [pageFonts_get, pageFonts_get]
      simp only [hp.mem_iff]
    obtain ⟨r, hr⟩ := h (fin fonts.keys)
    have hrun : ∀ ks : List Bytes, ks.Perm fonts.keys → Emits (liftX (pageFonts rs fonts ks []) >>= pageBody rs d)
        (r.map fun q => (q.1, (fonts.keys.flatMap errs).map .error ++ q.2)) := by
      intro ks hp
      have h1 := (pageFonts_ok ks [] fun k hk => hfix k (hp.mem_iff.1 hk)).emits
      have h2 : Emits (pageBody rs d (fin ks)) r := by rw [pageBody_same (hsame ks hp)]; exact hr
      refine (Emits.bind h1 h2).same ?_
      cases r with
      | none => trivial
      | some q => exact List.Perm.append ((hp.flatMap_right _).map _) (.refl _)
    cases r with
    | none =>
      refine ⟨none, fun s p hp => ?_⟩
      obtain ⟨l', hl, hs⟩ := key s
      rw [bind_of_ok hs] at hp
      exact hrun l' hl _ _ hp
    | some q =>
      refine ⟨some (q.1, (fonts.keys.flatMap errs).map .error ++ q.2), (hrun _ (.refl _)).1, fun s => ?_⟩
      obtain ⟨l', hl, hs⟩ := key s
      obtain ⟨s', vs, h3, h4, h5⟩ := (hrun l' hl).2 { s with order := s.order.next }
      exact ⟨s', vs, by rw [bind_of_ok hs, h3], h4, ⟨h5.commands, h5.files, h5.javascript, h5.text, h5.urls, h5.raw, h5.errors, h5.dumped⟩⟩
  · have : ∃ k, k ∈ fonts.keys ∧ ∀ p, g k ≠ .ok p := by
      apply Classical.byContradiction
      intro hno
      apply hall
      intro k hk
      apply Classical.byContradiction
      intro hne
      exact hno ⟨k, hk, fun p hp => hne ⟨p, hp⟩⟩
    obtain ⟨k, hk, hne⟩ := this
    have hfail : ∀ s p, fontOf rs fonts k s ≠ .ok p := by
      intro s p hp
      have h1 := hg k s
      cases hgk : g k with
      | ok q => exact hne q hgk
      | panic w => rw [hgk] at h1; rw [show fontOf rs fonts k s = .panic w from h1] at hp; cases hp
      | oof => rw [hgk] at h1; rw [show fontOf rs fonts k s = .oof from h1] at hp; cases hp
    refine ⟨none, fun s p hp => ?_⟩
    obtain ⟨l', hl, hs⟩ := key s
    rw [bind_of_ok hs] at hp
    obtain ⟨m, t, h1, -⟩ := bind_ok hp
    rw [liftX] at h1
    cases h2 : pageFonts rs fonts l' [] s.ps with
    | ok q => exact pageFonts_fails hfail l' (hl.mem_iff.2 hk) _ _ _ h2
    | panic w => rw [show ({ s with order := s.order.next } : XS).ps = s.ps from rfl, h2] at h1; cases h1
    | oof => rw [show ({ s with order := s.order.next } : XS).ps = s.ps from rfl, h2] at h1; cases h1

/-- Everything is steady when no offset is negative. -/
theorem steady_xcl {env : Env} (hoff : NonnegOffsets env) (f : Nat) : XCl env.ext (resolver env f) (fun _ => True) IsFixed Steady where
  cl := isFixed_cl hoff f
  pure := Steady.pure
  bind := Steady.bind
  ofRes := Steady.ofRes
  lift := fun ⟨_, hr⟩ => ⟨_, hr.emits⟩
  js := fun b _ => .of_post (by intro w hw; rw [List.mem_singleton.1 hw]; exact ⟨trivial, trivial⟩) (Post.putJs b) fun _ => ⟨_, rfl⟩
  url := fun b _ => .of_post (by intro w hw; rw [List.mem_singleton.1 hw]; exact ⟨trivial, trivial⟩) (Post.putUrl b) fun _ => ⟨_, rfl⟩
  command := fun _ _ _ => .of_post (by intro w hw; rw [List.mem_singleton.1 hw]; exact ⟨trivial, trivial⟩) (Post.putCommand _ _) fun _ => ⟨_, rfl⟩
  file := fun _ _ => .of_post (by intro w hw; rw [List.mem_singleton.1 hw]; exact ⟨trivial, trivial⟩) (Post.putFile _ _) fun _ => ⟨_, rfl⟩
  dump := fun _ _ _ _ => .of_post (by intro w hw; simp only [List.mem_cons, List.not_mem_nil, or_false] at hw; rcases hw with rfl | rfl <;> exact ⟨trivial, trivial⟩) (Post.dumpFile _ _ _) fun _ => ⟨_, rfl⟩
  text := by
    intro fonts c _
    cases ht : pageText fonts c with
    | panic w => exact ⟨none, fun s p hp => by cases hp⟩
    | oof => exact ⟨none, fun s p hp => by cases hp⟩
    | ok b =>
      refine Steady.of_post (ws := [.text b]) ?_ (Post.putText b) fun s => ⟨_, rfl⟩
      intro w hw
      rw [List.mem_singleton.1 hw]
      exact ⟨pageText_ended ht, trivial⟩
  raw := by
    intro o _
    refine ⟨some ((), [.raw o o.value]), fun w hw => by rw [List.mem_singleton.1 hw]; trivial, fun s => ?_⟩
    obtain ⟨vs, h1, v, h2, h3⟩ := Post.putRaw o s () _ rfl
    rw [h3] at h1
    exact ⟨_, [.raw o v], rfl, ⟨fun w hw => by rw [List.mem_singleton.1 hw]; exact h2, .refl _⟩, h1⟩
  shuffle := Steady.shuffle
  fonts := Steady.fonts (isFixed_cl hoff f)

theorem extractAll_steady {env : Env} (hoff : NonnegOffsets env) (f ft : Nat) (l : List (Int × XrefEntry)) :
    ∃ r, ∀ m : List (Int × XrefEntry), m.Perm l → Emits (extractAll env f ft m) r :=
  Emits.shuffle l _ fun x _ => (steady_xcl hoff f).extractEntry (fun n => getObject_fixed hoff f n) (fun _ => trivial) ft x

end Pdf
