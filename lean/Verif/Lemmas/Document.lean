import Verif.Spec.Document
import Verif.Props.Layout
/-!
Documents as files made up of objects; the places of the word `xref`.
-/

namespace Pdf
open Spec

/-- Objects, the last one with `t` after it. -/
def attach (t : Bytes) : List Part → List Part
  | [] => []
  | [p] => [⟨p.obj, p.notes, p.text ++ t⟩]
  | p :: q :: ps => p :: attach t (q :: ps)

theorem joined_attach (t : Bytes) : ∀ {ps : List Part}, ps ≠ [] → joined (attach t ps) = joined ps ++ t
  | [], h => absurd rfl h
  | [p], _ => by simp [attach, joined]
  | p :: q :: ps, _ => by
    rw [attach, joined_cons, joined_attach t (ps := q :: ps) (by simp), joined_cons p, List.append_assoc]

theorem attach_mem {t : Bytes} {p : Part} : ∀ {ps : List Part}, p ∈ attach t ps → p ∈ ps ∨ ∃ q ∈ ps, p = ⟨q.obj, q.notes, q.text ++ t⟩
  | [], h => by cases h
  | [q], h => by
    rw [attach, List.mem_singleton] at h
    exact .inr ⟨q, by simp, h⟩
  | q :: r :: ps, h => by
    rw [attach] at h
    rcases List.mem_cons.1 h with h | h
    · exact .inl (by simp [h])
    · rcases attach_mem h with h | ⟨x, hx, e⟩
      · exact .inl (List.mem_cons_of_mem _ h)
      · exact .inr ⟨x, List.mem_cons_of_mem _ hx, e⟩

theorem lacks_right {lit A B : Bytes} (h : Lacks lit (A ++ B)) : Lacks lit B := fun a b e => h (A ++ a) b (by rw [e]; simp)

theorem lacks_left {lit A B : Bytes} (h : Lacks lit (A ++ B)) : Lacks lit A := fun a b e => h a (b ++ B) (by rw [e]; simp)

theorem Spec.Between.append {u t : Bytes} (h : Between u) (ht : Lacks b!"obj" t) (hl : ∃ a c, t = a ++ c ∧ Break c) : Between (u ++ t) := by
  obtain ⟨a, c, rfl, hc⟩ := hl
  refine ⟨?_, ⟨u ++ a, c, by simp, hc⟩, ?_⟩
  · obtain ⟨b, v, rfl, hb⟩ := h.first
    exact ⟨b, _, rfl, hb⟩
  · intro x y e
    obtain ⟨x', -, e'⟩ := occ_after h.word h.ne (by
      intro l q hq hm
      have := h.white_last [] l q hq
      simp only [List.mem_cons, List.not_mem_nil, or_false] at hm
      rcases hm with rfl | rfl | rfl <;> exact absurd this (by decide)) (by decide) e
    exact ht _ _ e'

theorem Spec.RawText.attach {o : IndObj} {es : List Err} {T t : Bytes} (h : RawText o es T) (ht : Lacks b!"obj" t) (hl : ∃ a c, t = a ++ c ∧ Break c) :
    RawText o es (T ++ t) := by
  cases h with
  | value h1 h2 h3 h4 h5 h6 h7 h8 h9 =>
    have := RawText.value h1 h2 h3 h4 h5 h6 h7 h8 (h9.append ht hl)
    simpa using this
  | stream h1 h2 h3 h4 h5 h6 h7 h8 h9 h10 h11 h12 h13 h14 =>
    have := RawText.stream h1 h2 h3 h4 h5 h6 h7 h8 h9 h10 h11 h12 h13 (h14.append ht hl)
    simpa using this

theorem Spec.ObjectText.attach {rd : Reading} {o : IndObj} {es : List Err} {T t : Bytes} (h : ObjectText rd o es T) (ht : Lacks b!"obj" t) (hl : ∃ a c, t = a ++ c ∧ Break c) :
    ObjectText rd o es (T ++ t) := h.imp fun _ ⟨h1, h2⟩ => ⟨h1.attach ht hl, h2⟩

/-- No object at all. -/
def bare (us : List Update) : Prop := ∀ u ∈ us, u.parts = []

open Classical in
/-- What is in front of the first object. -/
noncomputable def lead : List Update → Bytes
  | [] => []
  | u :: us => if bare us then [] else if u.parts = [] then u.tail ++ lead us else []

open Classical in
/-- The objects of a document; what follows one of them up to the next belongs to it. -/
noncomputable def flat : List Update → List Part
  | [] => []
  | u :: us => if bare us then u.parts else attach (u.tail ++ lead us) u.parts ++ flat us

open Classical in
/-- What follows the last object. -/
noncomputable def endOf : List Update → Bytes
  | [] => []
  | u :: us => if bare us then u.tail ++ us.flatMap (·.tail) else endOf us

theorem Spec.BackText.eq {n : Nat} {r t : Bytes} (h : BackText n r t) : ∃ a, t = a ++ r ∧ ∀ b ∈ r, IsWhite b := by
  cases h with
  | @mk w w' r ds _ _ _ _ h => exact ⟨b!"startxref" ++ (w ++ (ds.map decDigit ++ (w' ++ b!"%%EOF"))), by simp, h⟩

theorem Spec.UpdateAt.tail_break {rd : Reading} {stray : Option Int → Prop} {pos : Nat} {prev : Option Nat} {u : Update} {r : Bytes} (h : UpdateAt rd stray pos prev u r) (hr : 10 ∈ r ∨ 13 ∈ r) :
    ∃ a c, u.tail = a ++ c ∧ Break c := by
  obtain ⟨m, hm, -⟩ := h.back
  obtain ⟨a, e, hw⟩ := hm.eq
  exact ⟨u.sect.text ++ a, r, by rw [Update.tail, e]; simp, hw, hr⟩

theorem bare_text : ∀ {us : List Update}, bare us → us.flatMap (·.text) = us.flatMap (·.tail)
  | [], _ => rfl
  | u :: us, h => by
    rw [List.flatMap_cons, List.flatMap_cons, bare_text fun v hv => h v (List.mem_cons_of_mem _ hv), Update.text, h u (by simp)]
    rfl

theorem flat_text : ∀ us : List Update, lead us ++ (joined (flat us) ++ endOf us) = us.flatMap (·.text)
  | [] => rfl
  | u :: us => by
    rw [lead, flat, endOf, List.flatMap_cons]
    by_cases hb : bare us
    · simp only [if_pos hb]
      rw [bare_text hb, Update.text]
      simp
    · simp only [if_neg hb]
      rw [← flat_text us]
      by_cases hp : u.parts = []
      · simp [hp, attach, Update.text, joined]
      · rw [if_neg hp, joined_append, joined_attach _ hp]
        simp [Update.text]

theorem Spec.UpdateAt.tail_first {rd : Reading} {stray : Option Int → Prop} {pos : Nat} {prev : Option Nat} {u : Update} {r : Bytes} (h : UpdateAt rd stray pos prev u r) :
    ∃ b t, u.tail = b :: t ∧ (b = 120 ∨ b = 115) := by
  rw [Update.tail]
  cases h.sect with
  | table e _ _ hx _ _ =>
    obtain ⟨t, rfl⟩ := hx
    rw [e]
    exact ⟨_, _, rfl, .inl rfl⟩
  | stream e _ _ _ _ _ _ _ _ _ _ _ _ _ =>
    rw [e]
    obtain ⟨n, hb, -⟩ := h.back
    generalize u.back = q at hb
    cases hb with
    | mk _ _ _ _ _ => exact ⟨_, _, rfl, .inr rfl⟩

theorem Spec.Updates.at {rd : Reading} {stray : Option Int → Prop} {u : Update} {us : List Update} {pos : Nat} {prev : Option Nat} (h : Updates rd stray pos prev (u :: us)) :
    ∃ r, UpdateAt rd stray pos prev u r ∧ (us ≠ [] → 10 ∈ r ∨ 13 ∈ r) ∧ (us ≠ [] → Updates rd stray (pos + u.text.length) (some (u.place pos)) us) := by
  cases h with
  | last h1 _ => exact ⟨_, h1, fun h => absurd rfl h, fun h => absurd rfl h⟩
  | cons h1 h2 h3 => exact ⟨_, h1, fun _ => h2, fun _ => h3⟩

/-- Text without the word `obj`, that may be put after a line break. -/
structure Mute (t : Bytes) : Prop where
  word : Lacks b!"obj" t
  first : ∀ b z, t = b :: z → b = 120 ∨ b = 115

theorem Mute.append {a t : Bytes} (h : Mute a) (ha : a ≠ []) (ht : Mute t) : Mute (a ++ t) where
  word := by
    refine lacks_append h.word ht.word ?_
    intro b z e
    rcases ht.first b z e with rfl | rfl <;> decide
  first := by
    intro b z e
    cases a with
    | nil => exact absurd rfl ha
    | cons c a => obtain ⟨rfl, -⟩ := List.cons.inj e; exact h.first _ _ rfl

theorem Spec.UpdateAt.mute {rd : Reading} {stray : Option Int → Prop} {pos : Nat} {prev : Option Nat} {u : Update} {r : Bytes} (h : UpdateAt rd stray pos prev u r) : Mute u.tail ∧ u.tail ≠ [] := by
  obtain ⟨b, t, e, hb⟩ := h.tail_first
  refine ⟨⟨h.word, ?_⟩, by rw [e]; simp⟩
  intro c z hc
  rw [e] at hc
  obtain ⟨rfl, -⟩ := List.cons.inj hc
  exact hb

theorem tails_mute {rd : Reading} {stray : Option Int → Prop} : ∀ {us : List Update} {pos : Nat} {prev : Option Nat}, Updates rd stray pos prev us → Mute (us.flatMap (·.tail)) := by
  intro us
  induction us with
  | nil => intro pos prev h; cases h
  | cons u us ih =>
    intro pos prev h
    obtain ⟨r, h1, -, h3⟩ := h.at
    rw [List.flatMap_cons]
    refine h1.mute.1.append h1.mute.2 ?_
    cases us with
    | nil => exact ⟨(fun a b e => by cases a <;> cases e), (fun b z e => by cases e)⟩
    | cons v us => exact ih (h3 (by simp))

theorem endOf_tail {rd : Reading} {stray : Option Int → Prop} : ∀ {us : List Update} {pos : Nat} {prev : Option Nat}, Updates rd stray pos prev us → Lacks b!"obj" (endOf us) ∧ ∃ b t, endOf us = b :: t ∧ (b = 120 ∨ b = 115) := by
  intro us
  induction us with
  | nil => intro pos prev h; cases h
  | cons u us ih =>
    intro pos prev h
    rw [endOf]
    by_cases hb : bare us
    · rw [if_pos hb]
      obtain ⟨r, h1, -, -⟩ := h.at
      have hq := tails_mute h
      rw [List.flatMap_cons] at hq
      obtain ⟨b, t, e, hb⟩ := h1.tail_first
      exact ⟨hq.word, b, t ++ us.flatMap (·.tail), by rw [e]; rfl, hb⟩
    · rw [if_neg hb]
      obtain ⟨r, -, -, h3⟩ := h.at
      refine ih (h3 ?_)
      rintro rfl
      exact hb (by intro u hu; cases hu)

theorem lead_mute {rd : Reading} {stray : Option Int → Prop} : ∀ {us : List Update} {pos : Nat} {prev : Option Nat}, Updates rd stray pos prev us →
    Mute (lead us) ∧ (lead us = [] ∨ ∃ a c, lead us = a ++ c ∧ Break c) := by
  intro us
  have nil : Mute [] := ⟨(fun a b e => by cases a <;> cases e), (fun b z e => by cases e)⟩
  induction us with
  | nil => intro pos prev h; cases h
  | cons u us ih =>
    intro pos prev h
    rw [lead]
    by_cases hb : bare us
    · rw [if_pos hb]; exact ⟨nil, .inl rfl⟩
    · rw [if_neg hb]
      have hne : us ≠ [] := by
        rintro rfl
        exact hb (by intro u hu; cases hu)
      obtain ⟨r, h1, h2, h3⟩ := h.at
      obtain ⟨k1, k2⟩ := ih (h3 hne)
      split
      · refine ⟨h1.mute.1.append h1.mute.2 k1, .inr ?_⟩
        rcases k2 with k2 | ⟨a, c, e, k2⟩
        · rw [k2, List.append_nil]; exact h1.tail_break (h2 hne)
        · exact ⟨u.tail ++ a, c, by rw [e]; simp, k2⟩
      · exact ⟨nil, .inl rfl⟩

theorem flat_parts {rd : Reading} {stray : Option Int → Prop} : ∀ {us : List Update} {pos : Nat} {prev : Option Nat}, Updates rd stray pos prev us → ∀ p ∈ flat us, ObjectText rd p.obj p.notes p.text := by
  intro us
  induction us with
  | nil => intro pos prev h; cases h
  | cons u us ih =>
    intro pos prev h p hp
    obtain ⟨r, h1, h2, h3⟩ := h.at
    rw [flat] at hp
    by_cases hb : bare us
    · rw [if_pos hb] at hp; exact h1.parts p hp
    · rw [if_neg hb] at hp
      have hne : us ≠ [] := by
        rintro rfl
        exact hb (by intro u hu; cases hu)
      rcases List.mem_append.1 hp with hp | hp
      · rcases attach_mem hp with hp | ⟨q, hq, rfl⟩
        · exact h1.parts p hp
        · obtain ⟨k1, k2⟩ := lead_mute (h3 hne)
          refine (h1.parts q hq).attach (h1.mute.1.append h1.mute.2 k1).word ?_
          rcases k2 with k2 | ⟨a, c, e, k2⟩
          · rw [k2, List.append_nil]; exact h1.tail_break (h2 hne)
          · exact ⟨u.tail ++ a, c, by rw [e]; simp, k2⟩
      · exact ih (h3 hne) p hp

theorem Spec.UpdateAt.mono {rd : Reading} {stray stray' : Option Int → Prop} (hs : ∀ m, stray m → stray' m) {pos : Nat} {prev : Option Nat} {u : Update} {r : Bytes} (h : UpdateAt rd stray pos prev u r) :
    UpdateAt rd stray' pos prev u r where
  parts := h.parts
  sect := h.sect
  back := by
    obtain ⟨m, h1, h2⟩ := h.back
    exact ⟨m, h1, h2.imp_right (hs _)⟩
  word := h.word
  hasPrev p hp := by
    rcases h.hasPrev p hp with ⟨x, h1, h2⟩ | ⟨h1, h2⟩
    · exact .inl ⟨x, h1, h2.imp_right (hs _)⟩
    · exact .inr ⟨h1, hs _ h2⟩
  noPrev := h.noPrev
  first := h.first

theorem Spec.Updates.mono {rd : Reading} {stray stray' : Option Int → Prop} (hs : ∀ m, stray m → stray' m) {pos : Nat} {prev : Option Nat} {us : List Update} (h : Updates rd stray pos prev us) :
    Updates rd stray' pos prev us := by
  induction h with
  | last h1 h2 => exact .last (h1.mono hs) h2
  | cons h1 h2 _ ih => exact .cons (h1.mono hs) h2 ih

theorem Spec.Updates.reprev {rd : Reading} {pos a : Nat} (b : Nat) {us : List Update} (h : Updates rd (fun _ => True) pos (some a) us) : Updates rd (fun _ => True) pos (some b) us := by
  have key : ∀ {u r}, UpdateAt rd (fun _ => True) pos (some a) u r → UpdateAt rd (fun _ => True) pos (some b) u r := by
    intro u r h
    refine ⟨h.parts, h.sect, h.back, h.word, fun p _ => ?_, fun h => (by cases h), fun _ => h.first (by simp)⟩
    rcases h.hasPrev a rfl with ⟨x, h1, -⟩ | h1
    · exact .inl ⟨x, h1, .inr trivial⟩
    · exact .inr h1
  cases h with
  | last h1 h2 => exact .last (key h1) h2
  | cons h1 h2 h3 => exact .cons (key h1) h2 h3

theorem Spec.Document.updates' {rd : Reading} {P : Bytes} {us : List Update} (h : Document rd P us) : ∃ prev, Updates rd (fun _ => True) P.length prev us := by
  cases h.sections with
  | linked h => exact ⟨_, h.mono fun _ _ => trivial⟩
  | found h _ _ => exact ⟨_, h.mono fun _ _ => trivial⟩
  | linearized h =>
    cases h with
    | @mk u v us r r' x h1 h2 h3 h4 h5 h6 h7 =>
      have hv : UpdateAt rd (fun _ => True) (P.length + u.text.length) (some (u.place P.length)) v r' :=
        ⟨h5.parts, h5.sect, h5.back, h5.word, (fun _ _ => .inr ⟨h5.noPrev rfl, trivial⟩), (fun h => by cases h), (fun _ => h6)⟩
      refine ⟨_, .cons h1 h2 ?_⟩
      rcases h7 with ⟨rfl, -, h9⟩ | ⟨h8, h9⟩
      · exact .last hv h9
      · exact .cons hv h8 ((h9.mono fun _ _ => trivial).reprev _)

theorem Spec.Document.updates {rd : Reading} {P : Bytes} {us : List Update} (h : Document rd P us) : Updates rd (fun _ => True) P.length h.updates'.choose us := h.updates'.choose_spec

theorem Spec.Document.lead {rd : Reading} {P : Bytes} {us : List Update} (h : Document rd P us) : lead us = [] := by
  cases us with
  | nil => rfl
  | cons u us =>
    rw [Pdf.lead, if_neg (h.nonempty u rfl)]
    split <;> rfl

theorem Spec.Document.made {rd : Reading} {P : Bytes} {us : List Update} (h : Document rd P us) : Made rd P (flat us) (endOf us) where
  pieces p hp := flat_parts h.updates p hp
  outside := by
    obtain ⟨h1, c, t, e, hc⟩ := endOf_tail h.updates
    refine lacks_append h.head h1 ?_
    intro b z hb
    rw [e] at hb
    obtain ⟨rfl, -⟩ := List.cons.inj hb
    rcases hc with rfl | rfl <;> decide
  start := h.start
  noOpen := h.noOpen

theorem Spec.Document.text {rd : Reading} {P : Bytes} {us : List Update} (h : Document rd P us) : docText P us = P ++ (joined (flat us) ++ endOf us) := by
  rw [docText, ← flat_text us, h.lead]; rfl

/-! ### Places -/

/-- without the text -/
def noText (q : Nat × Part) : Nat × IndObj × List Err := (q.1, q.2.obj, q.2.notes)

theorem placedParts_append : ∀ (a b : List Part) (pos : Nat), placedParts pos (a ++ b) = placedParts pos a ++ placedParts (pos + (joined a).length) b
  | [], b, pos => by simp [placedParts, joined]
  | p :: a, b, pos => by
    rw [List.cons_append, placedParts, placedParts_append a b, placedParts, joined_cons, List.length_append, Nat.add_assoc]; rfl

theorem placed_attach (t : Bytes) : ∀ (ps : List Part) (pos : Nat), (placedParts pos (attach t ps)).map noText = (placedParts pos ps).map noText
  | [], pos => rfl
  | [p], pos => rfl
  | p :: q :: ps, pos => by
    rw [attach, placedParts, placedParts, List.map_cons, placed_attach t (q :: ps), List.map_cons]

theorem placed_bare : ∀ {us : List Update} {pos : Nat}, bare us → placed pos us = []
  | [], _, _ => rfl
  | u :: us, pos, h => by
    rw [placed, h u (by simp), placed_bare fun v hv => h v (List.mem_cons_of_mem _ hv)]
    rfl

theorem placed_flat' : ∀ (us : List Update) (pos : Nat), (placedParts (pos + (lead us).length) (flat us)).map noText = (placed pos us).map noText
  | [], pos => rfl
  | u :: us, pos => by
    rw [lead, flat, placed]
    by_cases hb : bare us
    · simp only [if_pos hb]
      rw [placed_bare hb, List.append_nil]
      rfl
    · simp only [if_neg hb]
      rw [List.map_append, ← placed_flat' us, placedParts_append, List.map_append, placed_attach]
      by_cases hp : u.parts = []
      · simp [hp, attach, Update.text, joined, placedParts, Nat.add_assoc]
      · rw [if_neg hp, joined_attach _ hp]
        simp [Update.text, Nat.add_assoc]

theorem placed_flat {rd : Reading} {P : Bytes} {us : List Update} (h : Document rd P us) : (placedParts P.length (flat us)).map noText = (placed P.length us).map noText := by
  have := placed_flat' us P.length
  rwa [h.lead] at this

theorem lastPlaced_noText {l l' : List (Nat × Part)} (h : l.map noText = l'.map noText) (n : Int) : (lastPlaced l n).map noText = (lastPlaced l' n).map noText := by
  have : ∀ l : List (Nat × Part), (lastPlaced l n).map noText = (l.map noText).reverse.find? fun q => q.2.1.number = n := by
    intro l
    rw [lastPlaced, ← List.map_reverse, List.find?_map]
    rfl
  rw [this, this, h]

theorem placedParts_split : ∀ {ps : List Part} {pos : Nat} {l1 l2 : List (Nat × Part)} {q : Nat × Part}, placedParts pos ps = l1 ++ q :: l2 →
    ∃ ps1 ps2, ps = ps1 ++ q.2 :: ps2 ∧ q.1 = pos + (joined ps1).length ∧ l2.map (·.2) = ps2 := by
  intro ps
  induction ps with
  | nil => intro pos l1 l2 q h; cases l1 <;> cases h
  | cons p ps ih =>
    intro pos l1 l2 q h
    cases l1 with
    | nil =>
      obtain ⟨rfl, rfl⟩ := List.cons.inj h
      refine ⟨[], ps, rfl, by simp [joined], ?_⟩
      have : ∀ (ps : List Part) (pos : Nat), (placedParts pos ps).map (·.2) = ps := by
        intro ps
        induction ps with
        | nil => intro _; rfl
        | cons p ps ih => intro pos; rw [placedParts, List.map_cons, ih]
      exact this _ _
    | cons x l1 =>
      obtain ⟨ps1, ps2, e1, e2, e3⟩ := ih (List.cons.inj h).2
      refine ⟨p :: ps1, ps2, by rw [e1]; rfl, ?_, e3⟩
      rw [e2, joined_cons, List.length_append, Nat.add_assoc]

end Pdf
