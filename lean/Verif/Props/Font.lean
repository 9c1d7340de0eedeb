import Verif.Lemmas.Font
/-!
Fonts: decoding of text (C43) and character maps (C44).
-/

namespace Pdf.Props
open Pdf Pdf.Spec

/-! ### C43 -/

/-- **C43** A text that consists of codes of the font's width and a shorter rest: every code is replaced
by its value, or kept when it has none; the rest is dropped. -/
theorem C43_decode {font : Font} (hw : 1 ≤ font.width) {codes : List Bytes} {tail : Bytes} (hc : ∀ c ∈ codes, c.length = font.width)
    (ht : tail.length < font.width) : font.decode (codes.flatten ++ tail) = .ok (decodeCodes (fun c => font.lookup (bytesToInt c)) codes) := by
  have := length_flatten_ge hw hc
  rw [Font.decode, if_neg (by omega), decodeLoopFont_codes hw ht codes _ hc (by rw [List.length_append]; omega)]

/-- **C43** Every text is of that form, so `Decode` returns. -/
theorem C43_split {w : Nat} (hw : 1 ≤ w) (b : Bytes) : ∃ (codes : List Bytes) (tail : Bytes), b = codes.flatten ++ tail ∧
    (∀ c ∈ codes, c.length = w) ∧ tail.length < w := split_codes hw b.length b (Nat.le_refl _)

/-- **C43** The width is at least 1 for every ToUnicode stream. -/
theorem C43_width {cmap : Bytes} {font : Font} (h : newFont cmap = .ok font) : 1 ≤ font.width :=
  fontLoop_width cmap _ _ _ _ (Nat.le_refl 1) h

/-- **C43** Decoding a concatenation at a code boundary. -/
theorem C43_append {font : Font} (hw : 1 ≤ font.width) {a : Bytes} (ha : a.length % font.width = 0) (b : Bytes) :
    ∃ x y, font.decode a = .ok x ∧ font.decode b = .ok y ∧ font.decode (a ++ b) = .ok (x ++ y) := by
  obtain ⟨ca, ta, rfl, h1, h2⟩ := C43_split hw a
  obtain ⟨cb, tb, rfl, h3, h4⟩ := C43_split hw b
  have hta : ta = [] := by
    have hlen : ∀ {codes : List Bytes}, (∀ c ∈ codes, c.length = font.width) → codes.flatten.length = codes.length * font.width := by
      intro codes
      induction codes with
      | nil => intro _; simp
      | cons c cs ih =>
        intro h
        have e1 := h c (by simp)
        have e2 := ih fun x hx => h x (by simp [hx])
        rw [List.flatten_cons, List.length_append, e1, e2, List.length_cons, Nat.succ_mul]
        omega
    rw [List.length_append, hlen h1, Nat.mul_add_mod_of_lt h2] at ha
    exact List.length_eq_zero_iff.1 ha
  subst hta
  refine ⟨_, _, C43_decode hw h1 h2, C43_decode hw h3 h4, ?_⟩
  have := C43_decode hw (codes := ca ++ cb) (tail := tb) (by
    intro c hc
    rcases List.mem_append.1 hc with h | h
    · exact h1 c h
    · exact h3 c h) h4
  rw [List.append_nil]
  rw [List.flatten_append, List.append_assoc] at this
  rw [this, decodeCodes, decodeCodes, decodeCodes, List.flatMap_append]

/-- **C43** The default font leaves text as it is. -/
theorem C43_default (b : Bytes) : fontDefault.decode b = .ok b := by
  have h := C43_decode (font := fontDefault) (Nat.le_refl 1) (codes := b.map fun x => [x]) (tail := []) (by
    intro c hc
    obtain ⟨x, -, rfl⟩ := List.mem_map.1 hc
    rfl) (by decide)
  have h1 : (b.map fun x => [x]).flatten = b := by
    clear h
    induction b with
    | nil => rfl
    | cons x t ih => rw [List.map_cons, List.flatten_cons, ih]; rfl
  have h2 : decodeCodes (fun c => fontDefault.lookup (bytesToInt c)) (b.map fun x => [x]) = b := by
    clear h h1
    rw [decodeCodes]
    induction b with
    | nil => rfl
    | cons x t ih => rw [List.map_cons, List.flatMap_cons, ih]; rfl
  rw [h1, List.append_nil, h2] at h
  exact h

example : ∃ x y, (Font.mk [(0x4142, 0x4142, b!"x")] 2).decode b!"AB" = .ok x ∧ (Font.mk [(0x4142, 0x4142, b!"x")] 2).decode b!"CDE" = .ok y ∧
    (Font.mk [(0x4142, 0x4142, b!"x")] 2).decode (b!"AB" ++ b!"CDE") = .ok (x ++ y) :=
  C43_append (by decide) (by decide) _

example : ∃ font, newFont b!"1 beginbfchar <0041> <42>" = .ok font ∧ font.width = 2 := ⟨⟨[(0x41, 0x41, b!"B")], 2⟩, by decide +kernel, rfl⟩

example : (Font.mk [(0x4142, 0x4142, b!"x")] 2).decode b!"ABCDE" = .ok b!"xCD" :=
  C43_decode (codes := [b!"AB", b!"CD"]) (tail := b!"E") (by decide) (by decide) (by decide)

/-! ### C44 -/

/-- **C44** What loading a character map gives for each code `n`: the value of the last range listed that
contains it. -/
theorem C44_lookup {is : List MapItem} {t : Bytes} (h : MapText is t) : ∃ font, newFont t = .ok font ∧
    ∀ n : Nat, font.lookup n = (lastRange (is.flatMap MapItem.entries) n).map (·.2) :=
  ⟨_, newFont_text h, lookup_entries (entries_short h)⟩

/-- **C44** The width is that of the last code listed. -/
theorem C44_width {is : List MapItem} {t : Bytes} (h : MapText is t) : ∃ font, newFont t = .ok font ∧
    font.width = ((is.flatMap MapItem.entries).getLast?.map fun e => e.1.length).getD 1 := by
  refine ⟨_, newFont_text h, ?_⟩
  generalize is.flatMap MapItem.entries = es
  have key : ∀ (es : List (Bytes × Bytes × Bytes)) (font : Font), (es.foldl addEntry font).width = (es.getLast?.map fun e => e.1.length).getD font.width := by
    intro es
    induction es with
    | nil => intro font; rfl
    | cons e es ih =>
      intro font
      rw [List.foldl_cons, ih, List.getLast?_cons]
      cases es.getLast? <;> rfl
  exact key es {}

/-- **C44** Text decoded with a character map: codes of the map's width, at most seven bytes, are
replaced by what the map says. -/
theorem C44_text {is : List MapItem} {t : Bytes} (h : MapText is t) {codes : List Bytes} {font : Font} (hf : newFont t = .ok font)
    (hc : ∀ c ∈ codes, c.length = font.width) (h7 : font.width ≤ 7) :
    font.decode codes.flatten = .ok (decodeCodes (fun c => (lastRange (is.flatMap MapItem.entries) (beVal c)).map (·.2)) codes) := by
  obtain ⟨font', h1, h2⟩ := C44_lookup h
  rw [hf] at h1
  cases h1
  have hw := C43_width hf
  have h3 := C43_decode hw hc (tail := []) (by rw [List.length_nil]; omega)
  rw [List.append_nil] at h3
  rw [h3]
  congr 1
  rw [decodeCodes, decodeCodes]
  rw [List.flatMap_def, List.flatMap_def]
  congr 1
  refine List.map_congr_left fun c hcm => ?_
  have hl := hc c hcm
  rw [bytesToInt_short (by omega), h2]

/-- **C44, partial** A code that is the first of its range (so every code listed on its own) gets its
value. Missing: the other codes of a range (`C44_false`). -/
theorem C44_first_partial {is : List MapItem} {t : Bytes} (h : MapText is t) : ∃ font, newFont t = .ok font ∧
    ∀ n k v, lastRange (is.flatMap MapItem.entries) n = some (k, v) → k = 0 → font.lookup (n : Nat) = some (plus v k) := by
  obtain ⟨font, h1, h2⟩ := C44_lookup h
  refine ⟨font, h1, fun n k v hl hk => ?_⟩
  subst hk
  rw [h2, hl]
  show some v = some (plus v 0)
  congr 1
  rw [plus]
  cases hv : v.getLast? with
  | none => rw [List.getLast?_eq_none_iff] at hv; subst hv; rfl
  | some b =>
    obtain ⟨u, rfl⟩ := List.getLast?_eq_some_iff.1 hv
    show u ++ [b] = (u ++ [b]).dropLast ++ [UInt8.ofNat (b.toNat + 0)]
    rw [Nat.add_zero, UInt8.ofNat_toNat, List.dropLast_concat]

/-- A character map with one range of two codes. -/
def twoCodes : Bytes := b!"1 beginbfrange <00> <01> <41> endbfrange"

theorem twoCodes_text : MapText [.ranges [(b!"\x00", b!"\x01", b!"A")], .other ⟨b!"endbfrange", []⟩] twoCodes := by
  have hx : ∀ a b : Nat, a < 10 → b < 10 → HexAt (hexPairs [a, b]) [32, 60, hexLower a, hexLower b, 62] := by
    intro a b ha hb
    have := HexAt.mk (w := [32]) (.ws (by decide) .nil) (HexBody.digit (n := a) (c := hexLower a) ⟨by omega, .inl rfl⟩ (HexBody.digit (n := b) (c := hexLower b) ⟨by omega, .inl rfl⟩ .nil)) (by simp)
    exact this
  have hone : CmdAt ⟨b!"beginbfrange", [] ++ [.num (intNum false 1)]⟩ b!"1 beginbfrange" (b!" <00> <01> <41>" ++ b!" endbfrange") :=
    .arg (w := []) (t := [49]) (u := b!" beginbfrange") (e := []) .nil
      (.int (sg := []) (ds := [1]) .none (by decide) (by decide) (by decide) (by rintro b t ⟨⟩; decide) (by rintro u ⟨⟩) (not_refTail_of (by decide)))
      (by rintro k ⟨⟩)
      (.op (w := [32]) (.ws (by decide) .nil) (.kw (b := 98) (k := b!"eginbfrange") (by decide) (by decide) (by decide) (by decide) (by decide) (by decide) (by rintro b t ⟨⟩; decide)))
  have hend : CmdAt ⟨b!"endbfrange", []⟩ b!" endbfrange" [] :=
    .op (w := [32]) (.ws (by decide) .nil) (.kw (b := 101) (k := b!"ndbfrange") (by decide) (by decide) (by decide) (by decide) (by decide) (by decide) (by rintro b t ⟨⟩))
  exact .ranges (l := [(b!"\x00", b!"\x01", b!"A")]) (t := b!" <00> <01> <41>") (u := b!" endbfrange") hone
    (.cons (.mk (hx 0 0 (by decide) (by decide)) (by decide)) (.mk (hx 0 1 (by decide) (by decide)) (by decide)) (hx 4 1 (by decide) (by decide)) .nil) (by decide)
    (.other (u := []) hend (by decide) (by decide) (.nil ⟨[], [], rfl, .nil, .inl rfl⟩))

example : ∃ font, newFont twoCodes = .ok font ∧ font.lookup 0 = some b!"A" ∧ font.width = 1 := by
  obtain ⟨font, h1, h2⟩ := C44_lookup twoCodes_text
  obtain ⟨font', h3, h4⟩ := C44_width twoCodes_text
  rw [h1] at h3
  cases h3
  exact ⟨font, h1, by rw [show (0 : Int) = ((0 : Nat) : Int) from rfl, h2]; decide, by rw [h4]; decide⟩

example : ∃ font, newFont twoCodes = .ok font ∧ font.decode [[0], [7]].flatten = .ok b!"A\x07" := by
  obtain ⟨font, h1, h2⟩ := C44_width twoCodes_text
  have hw : font.width = 1 := by rw [h2]; decide
  refine ⟨font, h1, ?_⟩
  rw [C44_text twoCodes_text h1 (codes := [[0], [7]]) (by rw [hw]; decide) (by omega)]
  decide

/-- **C44 fails** for the second code of a range: with `<00> <01> <41>` code 01 gives A, not B. -/
theorem C44_false : ¬ ∀ (is : List MapItem) (t : Bytes), MapText is t → ∃ font, newFont t = .ok font ∧
    ∀ n k v, lastRange (is.flatMap MapItem.entries) n = some (k, v) → font.lookup (n : Nat) = some (plus v k) := by
  intro h
  obtain ⟨font, h1, h2⟩ := h _ _ twoCodes_text
  have h3 := h2 1 1 b!"A" (by decide)
  have h4 : newFont twoCodes = .ok ⟨[(0, 1, b!"A")], 1⟩ := by decide +kernel
  rw [h4] at h1
  cases h1
  exact absurd h3 (by decide)

/-- **C44 fails** for ranges whose values are listed in an array (ISO 32000-1, 9.10.3): neither the codes of such a range
nor those of the ranges after it in the block get a value. -/
theorem C44_array_false : ∃ font, newFont b!"3 beginbfrange <05> <05> <45> <00> <01> [<41> <42>] <02> <02> <43> endbfrange" = .ok font ∧
    font.lookup 5 = some b!"E" ∧ font.lookup 0 = none ∧ font.lookup 1 = none ∧ font.lookup 2 = none :=
  ⟨⟨[(5, 5, b!"E")], 1⟩, by decide +kernel, by decide, by decide, by decide, by decide⟩

/-- **C44, partial** Loading a character map returns, unless the map has a hex string whose value is
2^63 - 1 modulo 2^64 (see `C44_terminates_false`). -/
theorem C44_terminates_partial {cmap : Bytes} (hno : ∀ (a t r : Bytes) (ds : List Nat) (k : Nat), cmap = a ++ 60 :: (t ++ r) → HexBody ds t k →
    ((∃ u, r = 62 :: u) ∨ OpenComment r) → beVal (hexPairs ds) % 2 ^ 64 ≠ 2 ^ 63 - 1) : ∃ font, newFont cmap = .ok font := by
  refine newFont_runs cmap fun s hs => ?_
  have hv := (readHexRaw_spec cmap s).val
  rw [List.nil_append] at hv
  have hint : ∀ b : Bytes, bytesToInt b = 9223372036854775807 → beVal b % 2 ^ 64 = 2 ^ 63 - 1 := by
    intro b hb
    obtain ⟨-, -, k, hk⟩ := bytesToInt_isInt64 b
    rw [hb] at hk
    omega
  have h1 := hint _ hs
  rw [hv, lHex] at h1
  split at h1
  · exact absurd h1 (show ¬ beVal [] % 2 ^ 64 = 2 ^ 63 - 1 by decide)
  · rename_i b t hl
    split at h1
    · exact absurd h1 (show ¬ beVal [] % 2 ^ 64 = 2 ^ 63 - 1 by decide)
    · rename_i hb
      have hb : b = 60 := by simpa using hb
      subst hb
      have e0 : cmap = (cmap.take s.pos ++ (rest cmap s).take (skipWs false (rest cmap s))) ++ 60 :: t := by
        rw [← hl, List.append_assoc, List.take_append_drop, rest, List.take_append_drop]
      have hv0 : (LR.pre [] (skipWs false (rest cmap s) + 1) [] (hexGo false none t)).val = (hexGo false none t).val := by
        rw [LR.pre]; rfl
      rw [hv0] at h1
      obtain ⟨ds, t', k, hbody, ⟨r, rfl⟩ | ⟨u, hu, rfl⟩⟩ := hexBody_total t.length t (Nat.le_refl _)
      · rw [hexGo_closed hbody] at h1
        exact hno _ _ _ ds k e0 hbody (.inl ⟨r, rfl⟩) h1
      · rw [hexGo_unclosed hbody hu] at h1
        exact hno _ _ _ ds k e0 hbody (.inr hu) h1

/-- A map with three hex strings of few digits meets the hypothesis. -/
example : ∃ font, newFont b!"1 beginbfrange<0><1><41>" = .ok font := by
  refine C44_terminates_partial fun a t r ds k hin hb _ => ?_
  have hds : ds.length ≤ t.length := by
    clear hin
    induction hb with
    | nil => exact Nat.le_refl _
    | digit _ _ ih => simp only [List.length_cons]; omega
    | ws _ _ ih => simp only [List.length_cons]; omega
    | comment _ _ _ ih => simp only [List.length_cons, List.length_append]; omega
    | junk _ _ _ _ _ ih => simp only [List.length_cons]; omega
  have hlen : b!"1 beginbfrange<0><1><41>".length = a.length + 1 + (t.length + r.length) := by
    rw [hin]; simp only [List.length_cons, List.length_append]; omega
  have hle : 14 ≤ a.length := by
    refine Nat.le_of_not_lt fun hlt => ?_
    have h1 : (a ++ 60 :: (t ++ r))[a.length]? = some 60 := by simp
    rw [← hin] at h1
    have h2 : ∀ i < 14, b!"1 beginbfrange<0><1><41>"[i]? ≠ some 60 := by decide
    exact h2 _ hlt h1
  have hpairs : ∀ ds : List Nat, 2 * (hexPairs ds).length ≤ ds.length + 1 := by
    intro ds
    induction ds using hexPairs.induct with
    | case1 => decide
    | case2 => exact Nat.le_refl _
    | case3 h l t ih => simp only [hexPairs, List.length_cons]; omega
  have h1 := hpairs ds
  have h2 : b!"1 beginbfrange<0><1><41>".length = 24 := by decide
  have h3 := beVal_lt (hexPairs ds)
  have h4 : 256 ^ (hexPairs ds).length ≤ 256 ^ 5 := Nat.pow_le_pow_right (by decide) (by omega)
  omega

/-- **C44 fails**: with a range that ends at the largest integer, loading does not return. -/
theorem C44_terminates_false : ¬ ∀ cmap, ∃ font, newFont cmap = .ok font := by
  intro h
  obtain ⟨font, h1⟩ := h b!"1 beginbfrange <00> <7fffffffffffffff> <41>"
  have h2 : newFont b!"1 beginbfrange <00> <7fffffffffffffff> <41>" = .oof := by decide +kernel
  rw [h2] at h1
  cases h1

end Pdf.Props
