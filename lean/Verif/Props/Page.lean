import Verif.Lemmas.Page
/-!
Text of content streams (C45, C46).
-/

namespace Pdf.Props
open Pdf Pdf.Spec

/-! ### C45 -/

/-- **C45** The text of a content stream, as its blocks prescribe: a line for each command that shows
text, decoded with the current font, and nothing from outside the blocks. Of the array of `TJ` only the
elements at even positions count (see C46). -/
theorem C45_text {fonts : Assoc Bytes Font} {ps : List Piece} {cs : List Cmd} {t w l : Bytes} (hc : Content ps cs) (hp : ∀ p ∈ ps, p.Proper)
    (ht : CmdsAt cs t w) (hw : BlankEnd w) (hl : ContentText fonts.get? (fun a => strings (evens a)) ps l) : pageText fonts (t ++ w) = .ok l := by
  have h1 := cmdsAt_len ht
  have := pageLoop_text hc hp hl ht hw ((t ++ w).length + 3) PS.init [] (by rw [List.length_append]; omega) rfl
  rw [List.nil_append] at this
  exact this

/-- **C45** Every sequence of commands is made of such pieces. -/
theorem C45_pieces (cs : List Cmd) : ∃ ps, Content ps cs ∧ ∀ p ∈ ps, p.Proper := by
  have key : ∀ n (cs : List Cmd), cs.length ≤ n → ∃ ps, Content ps cs ∧ ∀ p ∈ ps, p.Proper := by
    intro n
    induction n with
    | zero =>
      intro cs h
      obtain rfl : cs = [] := List.length_eq_zero_iff.1 (by omega)
      exact ⟨[], .nil, by simp⟩
    | succ n ih =>
      intro cs h
      cases cs with
      | nil => exact ⟨[], .nil, by simp⟩
      | cons c cs =>
        by_cases hb : c.op = b!"BT"
        · obtain ⟨k, a⟩ := c
          cases hb
          have hsplit : ∀ l : List Cmd, (∀ x ∈ l, x.op ≠ b!"ET") ∨ ∃ u x v, l = u ++ x :: v ∧ (∀ y ∈ u, y.op ≠ b!"ET") ∧ x.op = b!"ET" := by
            intro l
            induction l with
            | nil => exact .inl (by simp)
            | cons x l ihl =>
              by_cases hx : x.op = b!"ET"
              · exact .inr ⟨[], x, l, rfl, by simp, hx⟩
              · rcases ihl with h | ⟨u, y, v, rfl, h1, h2⟩
                · exact .inl (by simpa [hx] using h)
                · exact .inr ⟨x :: u, y, v, rfl, by simpa [hx] using h1, h2⟩
          rcases hsplit cs with h1 | ⟨u, ⟨k, b⟩, v, rfl, h1, h2⟩
          · exact ⟨[.block cs], .open, by intro p hp; rw [List.mem_singleton] at hp; subst hp; exact h1⟩
          · cases h2
            obtain ⟨ps, h3, h4⟩ := ih v (by simp at h; omega)
            refine ⟨.block u :: ps, ?_, ?_⟩
            · have := Content.cons (Piece.Cmds.block (cs := u) (a := a) (b := b)) h3
              simpa using this
            · intro p hp
              rcases List.mem_cons.1 hp with rfl | hp
              · exact h1
              · exact h4 p hp
        · obtain ⟨ps, h3, h4⟩ := ih cs (by simp at h; omega)
          refine ⟨.cmd c :: ps, .cons .cmd h3, ?_⟩
          intro p hp
          rcases List.mem_cons.1 hp with rfl | hp
          · exact hb
          · exact h4 p hp
  exact key _ cs (Nat.le_refl _)

theorem decodes_total {font : Font} (hw : 1 ≤ font.width) (b : Bytes) : ∃ t, Decodes font b t := by
  obtain ⟨codes, tail, h1, h2, h3⟩ := split_codes hw b.length b (Nat.le_refl _)
  exact ⟨_, codes, tail, h1, h2, h3, rfl⟩

/-- **C45** ... and when the fonts have a width (C43) they prescribe a text. -/
theorem C45_exists {fonts : Bytes → Option Font} (tj : List Obj → Bytes) (hf : ∀ n font, fonts n = some font → 1 ≤ font.width) (ps : List Piece) :
    ∃ l, ContentText fonts tj ps l := by
  have hn : ∀ args, 1 ≤ (fontNamed fonts args).width := by
    intro args
    have : ∀ n, 1 ≤ ((fonts n).getD fontDefault).width := by
      intro n
      cases h : fonts n with
      | none => exact Nat.le_refl 1
      | some font => exact hf n font h
    rw [fontNamed]
    split <;> exact this _
  have hb : ∀ (cs : List Cmd) (font : Font), 1 ≤ font.width → ∃ l, BlockText fonts tj font cs l := by
    intro cs
    induction cs with
    | nil => intro font _; exact ⟨_, .nil⟩
    | cons c cs ih =>
      intro font hw
      by_cases h1 : c.op = b!"Tf"
      · obtain ⟨l, h⟩ := ih _ (hn c.args)
        exact ⟨l, .font h1 h⟩
      · obtain ⟨l, h⟩ := ih _ hw
        cases h2 : shown tj c with
        | none => exact ⟨l, .other h1 h2 h⟩
        | some b =>
          obtain ⟨t, ht⟩ := decodes_total hw b
          exact ⟨_, .line h2 ht h⟩
  induction ps with
  | nil => exact ⟨_, .nil⟩
  | cons p ps ih =>
    obtain ⟨l, h⟩ := ih
    cases p with
    | cmd c => exact ⟨l, .cmd h⟩
    | block cs =>
      obtain ⟨t, ht⟩ := hb cs fontDefault (Nat.le_refl 1)
      exact ⟨_, .block ht h⟩

/-- **C45** Extraction returns for every content stream, well-formed or not. -/
theorem C45_returns {fonts : Assoc Bytes Font} (hf : ∀ n font, fonts.get? n = some font → 1 ≤ font.width) (contents : Bytes) :
    ∃ l, pageText fonts contents = .ok l := by
  have hdec : ∀ (font : Font) b, 1 ≤ font.width → ∃ t, font.decode b = .ok t := fun font b hw => ⟨_, by rw [Font.decode, if_neg (by omega)]⟩
  have hn : ∀ n, 1 ≤ ((fonts.get? n).getD fontDefault).width := by
    intro n
    cases h : fonts.get? n with
    | none => exact Nat.le_refl 1
    | some font => exact hf n font h
  have key : ∀ f s mode out, (∀ font, mode = some font → 1 ≤ font.width) →
      ((contents.length - s.pos) + 2 ≤ f ∨ mode = none ∧ contents.length ≤ s.pos ∧ 1 ≤ f) → ∃ l, pageLoop contents fonts f s mode out = .ok l := by
    intro f
    induction f with
    | zero => intro s mode out _ h; omega
    | succ f ih =>
      intro s mode out hm hlen
      obtain ⟨k, os, err, s', h1, h2, h3, h4, h5⟩ := readCommand_total contents s
      have hlt : err ≠ .readError → (contents.length - s'.pos) + 2 ≤ f := by
        intro he
        have := h4 he
        omega
      rw [pageLoop, h1]
      cases mode with
      | none =>
        show ∃ l, (if err = .readError then _ else _) = _
        by_cases he : err = .readError
        · exact ⟨out, by rw [if_pos he]⟩
        · rw [if_neg he]
          split
          · exact ih _ _ _ (by rintro _ ⟨⟩; exact Nat.le_refl 1) (.inl (hlt he))
          · exact ih _ _ _ (by rintro _ ⟨⟩) (.inl (hlt he))
      | some font =>
        have hw := hm font rfl
        show ∃ l, (if err = .readError ∨ k = b!"ET" then _ else _) = _
        by_cases he : err = .readError
        · rw [if_pos (.inl he)]
          have := h5 he
          have hf1 : 1 ≤ f := by
            rcases hlen with h | ⟨h, -⟩
            · omega
            · cases h
          exact ih _ _ _ (by rintro _ ⟨⟩) (.inr ⟨rfl, this.1, hf1⟩)
        · have hl := hlt he
          by_cases het : k = b!"ET"
          · rw [if_pos (.inr het)]
            exact ih _ _ _ (by rintro _ ⟨⟩) (.inl hl)
          · rw [if_neg (by rintro (h | h); · exact he h
                           · exact het h)]
            dsimp only
            split
            · exact ih _ _ _ (by rintro _ ⟨⟩; exact hn _) (.inl hl)
            split
            · obtain ⟨t, ht⟩ := hdec font (((operand os (os.length - 1)).bind Obj.asStr?).getD []) hw
              rw [ht]
              exact ih _ _ _ hm (.inl hl)
            split
            · obtain ⟨t, ht⟩ := hdec font (tjString (((operand os (os.length - 1)).bind Obj.asArr?).getD [])) hw
              rw [ht]
              exact ih _ _ _ hm (.inl hl)
            · exact ih _ _ _ hm (.inl hl)
  exact key _ _ _ _ (by rintro _ ⟨⟩) (.inl (by simp [PS.init]))

/-! ### C46 -/

/-- A content stream with the words A and B in one array. -/
def twoWords : Bytes := b!"BT [(A)(B)] TJ ET"

theorem twoWords_cmds : CmdsAt [⟨b!"BT", []⟩, ⟨b!"TJ", [.arr [.str b!"A", .str b!"B"]]⟩, ⟨b!"ET", []⟩] twoWords [] := by
  have kw2 : ∀ {a b : UInt8} {r : Bytes}, ObjAt (.kw [a, b]) [a, b] r [] → CmdAt ⟨[a, b], []⟩ [32, a, b] r := fun h => .op (w := [32]) (.ws (by decide) .nil) h
  have bt : CmdAt ⟨b!"BT", []⟩ b!"BT" (b!" [(A)(B)] TJ ET" ++ []) :=
    .op (w := []) .nil (.kw (b := 66) (k := [84]) (by decide) (by decide) (by decide) (by decide) (by decide) (by decide) (by rintro b t ⟨⟩; decide))
  have tj : CmdAt ⟨b!"TJ", [.arr [.str b!"A", .str b!"B"]]⟩ b!" [(A)(B)] TJ" (b!" ET" ++ []) :=
    .arg (w := [32]) (t := b!"[(A)(B)]") (u := b!" TJ") (e := []) (.ws (by decide) .nil)
      (.arr (.cons (w := []) (t := b!"(A)") (u := b!"(B)]") (e := []) (e' := []) .nil (.str (t := b!"A") (.plain (by decide) (by decide) (by decide) .nil))
        (.cons (w := []) (t := b!"(B)") (u := b!"]") (e := []) (e' := []) .nil (.str (t := b!"B") (.plain (by decide) (by decide) (by decide) .nil)) (.nil (w := []) .nil))))
      (by rintro k ⟨⟩)
      (kw2 (.kw (b := 84) (k := [74]) (by decide) (by decide) (by decide) (by decide) (by decide) (by decide) (by rintro b t ⟨⟩; decide)))
  have et : CmdAt ⟨b!"ET", []⟩ b!" ET" [] :=
    kw2 (.kw (b := 69) (k := [84]) (by decide) (by decide) (by decide) (by decide) (by decide) (by decide) (by rintro b t ⟨⟩))
  exact .cons (u := b!" [(A)(B)] TJ ET") bt (.cons (u := b!" ET") tj (.cons (u := []) et .nil))

example : pageText [] twoWords = .ok b!"A\n" := by
  have := C45_text (fonts := []) (Content.cons (Piece.Cmds.block (cs := [⟨b!"TJ", [.arr [.str b!"A", .str b!"B"]]⟩]) (a := []) (b := [])) .nil)
    (by intro p hp; rw [List.mem_singleton] at hp; subst hp; intro c hc; rw [List.mem_singleton] at hc; subst hc; decide)
    twoWords_cmds ⟨[], [], rfl, .nil, .inl rfl⟩
    (.block (l := b!"A\n") (t := []) (.line (b := b!"A") (l := b!"A") (t := []) (by decide) ⟨[b!"A"], [], by decide, by decide, by decide, by decide⟩ .nil) .nil)
  rwa [List.append_nil] at this

/-- **C46** fails. -/
theorem C46_false : ¬ ∀ (fonts : Assoc Bytes Font) (ps : List Piece) (cs : List Cmd) (t w l : Bytes), Content ps cs → (∀ p ∈ ps, p.Proper) →
    CmdsAt cs t w → BlankEnd w → ContentText fonts.get? strings ps l → pageText fonts (t ++ w) = .ok l := by
  intro h
  have h1 := h [] [.block [⟨b!"TJ", [.arr [.str b!"A", .str b!"B"]]⟩]] _ twoWords [] b!"AB\n" (Content.cons (Piece.Cmds.block (a := []) (b := [])) .nil)
    (by intro p hp; rw [List.mem_singleton] at hp; subst hp; intro c hc; rw [List.mem_singleton] at hc; subst hc; decide)
    twoWords_cmds ⟨[], [], rfl, .nil, .inl rfl⟩
    (.block (l := b!"AB\n") (t := []) (.line (b := b!"AB") (l := b!"AB") (t := []) (by decide) ⟨[b!"A", b!"B"], [], by decide, by decide, by decide, by decide⟩ .nil) .nil)
  have h2 : pageText [] twoWords = .ok b!"A\n" := by decide +kernel
  rw [List.append_nil, h2] at h1
  exact absurd h1 (by decide)

/-- The elements at odd positions are not strings, as where strings and numbers alternate. -/
def Alternating : List Obj → Prop
  | [] => True
  | [_] => True
  | _ :: o :: t => (∀ b, o ≠ .str b) ∧ Alternating t

/-- Every array shown by a `TJ` of the block alternates. -/
def Piece.Alternates : Piece → Prop
  | .cmd _ => True
  | .block cs => ∀ c ∈ cs, c.op = b!"TJ" → Alternating (lastArray c.args)

theorem strings_evens {l : List Obj} (h : Alternating l) : strings (evens l) = strings l := by
  induction l using evens.induct with
  | case1 => rfl
  | case2 o => rfl
  | case3 o x t ih =>
    rw [evens, strings, List.flatMap_cons, ← strings, ih h.2, strings, strings, List.flatMap_cons, List.flatMap_cons]
    have hx := h.1
    cases x with
    | str b => exact absurd rfl (hx b)
    | _ => rfl

theorem oneWord_cmds : CmdsAt [⟨b!"BT", []⟩, ⟨b!"TJ", [.arr [.str b!"A"]]⟩, ⟨b!"ET", []⟩] b!"BT [(A)] TJ ET" [] := by
  have kw2 : ∀ {a b : UInt8} {r : Bytes}, ObjAt (.kw [a, b]) [a, b] r [] → CmdAt ⟨[a, b], []⟩ [32, a, b] r := fun h => .op (w := [32]) (.ws (by decide) .nil) h
  have bt : CmdAt ⟨b!"BT", []⟩ b!"BT" (b!" [(A)] TJ ET" ++ []) :=
    .op (w := []) .nil (.kw (b := 66) (k := [84]) (by decide) (by decide) (by decide) (by decide) (by decide) (by decide) (by rintro b t ⟨⟩; decide))
  have tj : CmdAt ⟨b!"TJ", [.arr [.str b!"A"]]⟩ b!" [(A)] TJ" (b!" ET" ++ []) :=
    .arg (w := [32]) (t := b!"[(A)]") (u := b!" TJ") (e := []) (.ws (by decide) .nil)
      (.arr (.cons (w := []) (t := b!"(A)") (u := b!"]") (e := []) (e' := []) .nil (.str (t := b!"A") (.plain (by decide) (by decide) (by decide) .nil)) (.nil (w := []) .nil)))
      (by rintro k ⟨⟩)
      (kw2 (.kw (b := 84) (k := [74]) (by decide) (by decide) (by decide) (by decide) (by decide) (by decide) (by rintro b t ⟨⟩; decide)))
  have et : CmdAt ⟨b!"ET", []⟩ b!" ET" [] :=
    kw2 (.kw (b := 69) (k := [84]) (by decide) (by decide) (by decide) (by decide) (by decide) (by decide) (by rintro b t ⟨⟩))
  exact .cons (u := b!" [(A)] TJ ET") bt (.cons (u := b!" ET") tj (.cons (u := []) et .nil))

/-- **C46, partial** Every string of the array of a `TJ` is shown, when the strings stand at even
positions only. Missing: other arrays (`C46_false`). -/
theorem C46_partial {fonts : Assoc Bytes Font} {ps : List Piece} {cs : List Cmd} {t w l : Bytes} (hc : Content ps cs) (hp : ∀ p ∈ ps, p.Proper)
    (ha : ∀ p ∈ ps, Piece.Alternates p) (ht : CmdsAt cs t w) (hw : BlankEnd w) (hl : ContentText fonts.get? strings ps l) : pageText fonts (t ++ w) = .ok l := by
  refine C45_text hc hp ht hw ?_
  have hb : ∀ {font cs l}, BlockText fonts.get? strings font cs l → (∀ c ∈ cs, c.op = b!"TJ" → Alternating (lastArray c.args)) →
      BlockText fonts.get? (fun a => strings (evens a)) font cs l := by
    have hsh : ∀ c : Cmd, (c.op = b!"TJ" → Alternating (lastArray c.args)) → shown (fun a => strings (evens a)) c = shown strings c := by
      intro c hc
      rw [shown, shown]
      split
      · rfl
      · split
        · rename_i h; rw [strings_evens (hc h)]
        · rfl
    intro font cs l h
    induction h with
    | nil => intro _; exact .nil
    | font h1 _ ih => intro hx; exact .font h1 (ih fun c hc => hx c (by simp [hc]))
    | line h1 h2 _ ih => intro hx; exact .line (by rw [hsh _ (hx _ (by simp)), h1]) h2 (ih fun c hc => hx c (by simp [hc]))
    | other h1 h2 _ ih => intro hx; exact .other h1 (by rw [hsh _ (hx _ (by simp)), h2]) (ih fun c hc => hx c (by simp [hc]))
  clear hc hp ht
  induction hl with
  | nil => exact .nil
  | cmd _ ih => exact .cmd (ih fun p hp => ha p (by simp [hp]))
  | block h1 _ ih => exact .block (hb h1 (show Piece.Alternates (.block _) from ha _ (by simp))) (ih fun p hp => ha p (by simp [hp]))

example : pageText [] b!"BT [(A)] TJ ET" = .ok b!"A\n" := by
  have := C46_partial (fonts := []) (Content.cons (Piece.Cmds.block (cs := [⟨b!"TJ", [.arr [.str b!"A"]]⟩]) (a := []) (b := [])) .nil)
    (by intro p hp; rw [List.mem_singleton] at hp; subst hp; intro c hc; rw [List.mem_singleton] at hc; subst hc; decide)
    (by intro p hp; rw [List.mem_singleton] at hp; subst hp; intro c hc; rw [List.mem_singleton] at hc; subst hc; intro _; trivial)
    oneWord_cmds ⟨[], [], rfl, .nil, .inl rfl⟩
    (.block (l := b!"A\n") (t := []) (.line (b := b!"A") (l := b!"A") (t := []) (by decide) ⟨[b!"A"], [], by decide, by decide, by decide, by decide⟩ .nil) .nil)
  rwa [List.append_nil] at this

end Pdf.Props
