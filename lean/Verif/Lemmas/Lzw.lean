import Verif.Spec.Lzw
import Verif.Model.Lzw
import Verif.Lemmas.Getters
/-!
The LZW readers undo LZW encodings.
-/

namespace Pdf
open Spec

/-! ### Bits -/

theorem numBits_length (w n : Nat) : (numBits w n).length = w := by simp [numBits]

theorem toBits_eq (d : Bytes) : toBits d = dataBits d := rfl

theorem numBits_succ (w n : Nat) : numBits (w + 1) n = numBits w (n / 2) ++ [n.testBit 0] := by
  rw [numBits, List.range_succ, List.map_append, numBits]
  congr 1
  · apply List.map_congr_left
    intro i hi
    rw [List.mem_range] at hi
    rw [show w + 1 - 1 - i = (w - 1 - i) + 1 by omega, Nat.testBit_succ]
  · simp

theorem bitsVal_append (bs : List Bool) (b : Bool) : bitsVal (bs ++ [b]) = 2 * bitsVal bs + b.toNat := by
  simp [bitsVal]

theorem bitsVal_numBits : ∀ {w n : Nat}, n < 2 ^ w → bitsVal (numBits w n) = n
  | 0, n, h => by
    obtain rfl : n = 0 := by omega
    rfl
  | w + 1, n, h => by
    rw [numBits_succ, bitsVal_append, bitsVal_numBits (by rw [Nat.pow_succ] at h; omega)]
    rw [Nat.testBit_zero]
    by_cases h2 : n % 2 = 1
    · simp [h2]; omega
    · simp [h2]; omega

/-! ### The table -/

/-- The string that a code stands for; all entries that it is made of are below `B`. -/
inductive Expands (s : LzwState) (B : Nat) : Nat → Bytes → Prop
  | literal {c} : c < 256 → Expands s B c [UInt8.ofNat c]
  | entry {c p} : 256 ≤ c → c < B → Expands s B (s.pref c) p → Expands s B c (p ++ [s.suffix c])

theorem Expands.mono {s : LzwState} {B B' c : Nat} {p : Bytes} (h : Expands s B c p) (hB : B ≤ B') : Expands s B' c p := by
  induction h with
  | literal h => exact .literal h
  | entry h1 h2 _ ih => exact .entry h1 (by omega) ih

theorem Expands.congr {s s' : LzwState} {B c : Nat} {p : Bytes} (h : Expands s B c p) (hs : ∀ j, j < B → s'.suffix j = s.suffix j ∧ s'.pref j = s.pref j) : Expands s' B c p := by
  induction h with
  | literal h => exact .literal h
  | @entry c p h1 h2 _ ih =>
    obtain ⟨e1, e2⟩ := hs c h2
    rw [← e1]
    rw [← e2] at ih
    exact .entry h1 h2 ih

theorem Expands.walk {s : LzwState} {B c : Nat} {p : Bytes} (h : Expands s B c p) : ∀ (f : Nat) (acc : Bytes), p.length ≤ f →
    ∃ b t, p = UInt8.ofNat b :: t ∧ b < 256 ∧ lzwWalk s f c acc = (b, t ++ acc) := by
  induction h with
  | @literal c h =>
    intro f acc hf
    refine ⟨c, [], rfl, h, ?_⟩
    cases f with
    | zero => rfl
    | succ f => rw [lzwWalk, if_pos h]; rfl
  | @entry c p h1 h2 _ ih =>
    intro f acc hf
    rw [List.length_append] at hf
    cases f with
    | zero => simp at hf
    | succ f =>
      obtain ⟨b, t, rfl, hb, hw⟩ := ih f (s.suffix c :: acc) (by simp only [List.length_cons, List.length_nil] at hf; omega)
      refine ⟨b, t ++ [s.suffix c], rfl, hb, ?_⟩
      rw [lzwWalk, if_neg (by omega), hw]
      simp

/-- The state of a reader after `k` phrases. -/
structure At (early : Bool) (ps : List Bytes) (k : Nat) (s : LzwState) : Prop where
  hi : s.hi = 257 + k
  width : s.width = codeWidth early k
  overflow : s.overflow = 2 ^ codeWidth early k
  first : k = 0 → s.last = none
  last : 0 < k → k < 3838 → ∃ c p, s.last = some c ∧ ps[k - 1]? = some p ∧ Expands s (257 + k) c p
  entries : ∀ i p b q, i + 1 < k → ps[i]? = some p → ps[i + 1]? = some (b :: q) → Expands s (257 + k) (258 + i) (p ++ [b])

theorem codeWidth_succ (early : Bool) {k : Nat} (h : k < 3838) :
    if 258 + k + early.toNat ≥ 2 ^ codeWidth early k then (codeWidth early k = 12 ∧ codeWidth early (k + 1) = 12 ∧ k = 3837 ∧ early = true) ∨ (codeWidth early k ≠ 12 ∧ codeWidth early (k + 1) = codeWidth early k + 1)
    else codeWidth early (k + 1) = codeWidth early k := by
  cases early <;> simp only [codeWidth, Bool.toNat_false, Bool.toNat_true] <;> split <;> (try split) <;> (try split) <;> (try split) <;> (try split) <;> (try split) <;> (try split) <;> simp <;> omega

/-- The first phrase is a byte, and a phrase is at most one byte longer than the longest before it. -/
theorem phrase_length {ps : List Bytes} {k : Nat} (hc : ∀ j, j ≤ k → ∃ c, CodeOf ps j c) : ∀ j, j ≤ k → ∀ p, ps[j]? = some p → p ≠ [] ∧ p.length ≤ j + 1 := by
  intro j
  induction j using Nat.strongRecOn with
  | _ j ih =>
    intro hj p hp
    obtain ⟨c, h⟩ := hc j hj
    cases h with
    | literal h => rw [hp] at h; cases h; simp
    | @entry i p' b q h1 h2 h3 h4 =>
      rw [hp] at h4
      cases h4
      have := (ih i h1 (by omega) p' h2).2
      simp; omega

theorem lzwNext_at {early : Bool} {ps : List Bytes} {k code : Nat} {s s1 : LzwState} {p : Bytes} (hA : At early ps k s) (hk : k < 3838) (h1 : s1.hi = s.hi) (h2 : s1.width = s.width) (h3 : s1.overflow = s.overflow)
    (hp : ps[k]? = some p) (hx : Expands s1 (258 + k) code p)
    (he : ∀ i p b q, i < k → ps[i]? = some p → ps[i + 1]? = some (b :: q) → Expands s1 (258 + k) (258 + i) (p ++ [b])) :
    At early ps (k + 1) (lzwNext early s1 code) := by
  have hw := codeWidth_succ early hk
  have hhi : (s1.hi + 1) % 65536 = 258 + k := by rw [h1, hA.hi]; omega
  have hB : 257 + (k + 1) = 258 + k := by omega
  rw [lzwNext]
  simp only [hhi, h3, hA.overflow, h2, hA.width]
  split
  · rename_i hge
    rw [if_pos (by omega)] at hw
    rcases hw with ⟨w1, w2, w3, w4⟩ | ⟨w1, w2⟩
    · rw [if_pos w1, w4]
      rw [w4] at w1 w2
      refine ⟨by simp; omega, by rw [w1, w2], by rw [w1, w2], by omega, by omega, ?_⟩
      · intro i p b q hi hp hq
        rw [hB]
        exact (he i p b q (by omega) hp hq).congr fun j _ => ⟨rfl, rfl⟩
    · rw [if_neg w1]
      refine ⟨hB.symm ▸ rfl, w2.symm, ?_, by omega, fun _ _ => ⟨code, p, rfl, by simpa using hp, by rw [hB]; exact hx.congr fun j _ => ⟨rfl, rfl⟩⟩, ?_⟩
      · show 2 * 2 ^ codeWidth early k = _
        rw [w2, Nat.pow_succ, Nat.mul_comm]
      · intro i p b q hi hp hq
        rw [hB]
        exact (he i p b q (by omega) hp hq).congr fun j _ => ⟨rfl, rfl⟩
  · rename_i hge
    rw [if_neg (by omega)] at hw
    refine ⟨hB.symm ▸ rfl, ?_, ?_, by omega, fun _ _ => ⟨code, p, rfl, by simpa using hp, by rw [hB]; exact hx.congr fun j _ => ⟨rfl, rfl⟩⟩, ?_⟩
    · show codeWidth early k = _
      rw [hw]
    · show 2 ^ codeWidth early k = _
      rw [hw]
    · intro i p b q hi hp hq
      rw [hB]
      exact (he i p b q (by omega) hp hq).congr fun j _ => ⟨rfl, rfl⟩

theorem lzwSave_same (s : LzwState) (c : Nat) : (lzwSave s c).hi = s.hi ∧ (lzwSave s c).width = s.width ∧ (lzwSave s c).overflow = s.overflow := by
  rw [lzwSave]; split <;> exact ⟨rfl, rfl, rfl⟩

/-- Saving keeps the entries and adds one. -/
theorem lzwSave_entries {early : Bool} {ps : List Bytes} {k c : Nat} {s : LzwState} {p t : Bytes} (hA : At early ps k s) (hk : k < 3838) (hp : ps[k]? = some p) (hc : p = UInt8.ofNat c :: t) :
    (∀ {x q}, Expands s (257 + k) x q → Expands (lzwSave s c) (257 + k) x q) ∧
      ∀ i p b q, i < k → ps[i]? = some p → ps[i + 1]? = some (b :: q) → Expands (lzwSave s c) (258 + k) (258 + i) (p ++ [b]) := by
  have hold : ∀ {x q}, Expands s (257 + k) x q → Expands (lzwSave s c) (257 + k) x q := by
    intro x q h
    refine h.congr fun j hj => ?_
    rw [lzwSave]
    split
    · exact ⟨rfl, rfl⟩
    · rw [hA.hi]
      exact ⟨if_neg (by omega), if_neg (by omega)⟩
  refine ⟨hold, fun i p' b q hi h1 h2 => ?_⟩
  by_cases hlast : i + 1 < k
  · exact (hold (hA.entries i p' b q hlast h1 h2)).mono (by omega)
  · obtain rfl : k = i + 1 := by omega
    obtain ⟨l, p'', hl, h3, hx⟩ := hA.last (by omega) hk
    rw [Nat.add_sub_cancel, h1] at h3
    cases h3
    rw [hp, hc] at h2
    cases h2
    have hs : (lzwSave s c).suffix (258 + i) = UInt8.ofNat c ∧ (lzwSave s c).pref (258 + i) = l := by
      rw [lzwSave, hl]
      dsimp only
      rw [hA.hi]
      exact ⟨if_pos (by omega), if_pos (by omega)⟩
    have := Expands.entry (s := lzwSave s c) (B := 258 + (i + 1)) (c := 258 + i) (p := p') (by omega) (by omega) (by rw [hs.2]; exact (hold hx).mono (by omega))
    rwa [hs.1] at this

theorem ofNat_inj {a b : Nat} (ha : a < 256) (hb : b < 256) (h : UInt8.ofNat a = UInt8.ofNat b) : a = b := by
  have := congrArg UInt8.toNat h
  rw [UInt8.toNat_ofNat', UInt8.toNat_ofNat'] at this
  omega

theorem lzwStep_phrase {early : Bool} {ps : List Bytes} {k c : Nat} {s : LzwState} (hA : At early ps k s) (hk : k < 3838) (hall : ∀ j, j ≤ k → ∃ c, CodeOf ps j c) (hc : CodeOf ps k c) :
    ∃ p s', ps[k]? = some p ∧ lzwStep early s c = .out p s' ∧ At early ps (k + 1) s' := by
  cases hc with
  | @literal b h =>
    have hb : b.toNat < 256 := b.toNat_lt
    have hof : UInt8.ofNat b.toNat = b := UInt8.ofNat_toNat
    obtain ⟨e1, e2, e3⟩ := lzwSave_same s b.toNat
    obtain ⟨-, k2⟩ := lzwSave_entries (c := b.toNat) hA hk h (t := []) (by rw [hof])
    refine ⟨_, _, h, by rw [lzwStep, if_pos hb, hof], lzwNext_at hA hk e1 e2 e3 h ?_ k2⟩
    have := Expands.literal (s := lzwSave s b.toNat) (B := 258 + k) hb
    rwa [hof] at this
  | @entry i p b q hi h1 h2 h3 =>
    have hlen := (phrase_length hall k (Nat.le_refl _) _ h3).2
    rw [List.length_append] at hlen
    simp only [List.length_cons, List.length_nil] at hlen
    have hstep : ∀ {c0 t}, p ++ [b] = UInt8.ofNat c0 :: t → Expands (lzwSave s c0) (258 + k) (258 + i) (p ++ [b]) →
        lzwString s (258 + i) = (c0, t) →
        ∃ p' s', ps[k]? = some p' ∧ lzwStep early s (258 + i) = .out p' s' ∧ At early ps (k + 1) s' := by
      intro c0 t hp0 hx hw
      obtain ⟨e1, e2, e3⟩ := lzwSave_same s c0
      obtain ⟨-, k2⟩ := lzwSave_entries hA hk h3 hp0
      refine ⟨_, _, h3, ?_, lzwNext_at hA hk e1 e2 e3 h3 hx k2⟩
      rw [lzwStep, if_neg (by omega), if_neg (by omega), if_neg (by omega), if_pos (by rw [hA.hi]; omega)]
      rw [hp0]
      rw [hw]
    by_cases hlast : i + 1 < k
    · have hx := hA.entries i p b q hlast h1 h2
      obtain ⟨c0, t, hp0, hb0, hw⟩ := hx.walk 4096 [] (by simp; omega)
      obtain ⟨k1, -⟩ := lzwSave_entries hA hk h3 hp0
      refine hstep hp0 ((k1 hx).mono (by omega)) ?_
      rw [lzwString]
      split
      · simpa using hw
      · rw [if_neg (by rw [hA.hi]; omega)]
        simpa using hw
    · obtain rfl : k = i + 1 := by omega
      obtain ⟨l, p'', hl, h4, hx⟩ := hA.last (by omega) hk
      rw [Nat.add_sub_cancel, h1] at h4
      cases h4
      obtain ⟨c0, t, hp0, hb0, hw0⟩ := hx.walk 4096 [] (by omega)
      obtain ⟨c1, t1, hp1, hb1, hw1⟩ := hx.walk 4096 [UInt8.ofNat c0] (by omega)
      rw [hp0] at hp1
      obtain ⟨hc01, rfl⟩ := List.cons.inj hp1
      obtain rfl := ofNat_inj hb0 hb1 hc01
      have hbc : b = UInt8.ofNat c0 := by
        rw [h2] at h3
        rw [hp0] at h3
        exact (List.cons.inj (Option.some.inj h3)).1
      have hp : p ++ [b] = UInt8.ofNat c0 :: (t ++ [UInt8.ofNat c0]) := by rw [hp0, hbc]; rfl
      obtain ⟨-, k2⟩ := lzwSave_entries hA hk h3 hp
      refine hstep hp (k2 i p b q (by omega) h1 h2) ?_
      rw [lzwString, hl]
      dsimp only
      rw [if_pos (by rw [hA.hi]; omega), hw0, hw1]

/-! ### Blocks -/

theorem codeOf_lt {early : Bool} {ps : List Bytes} {k c : Nat} (h : CodeOf ps k c) (hk : k < 3838) : c < 2 ^ codeWidth early k := by
  have hb : c ≤ 257 + k := by
    cases h with
    | @literal b h => have := b.toNat_lt; omega
    | entry hi => omega
  have : 257 + k < 2 ^ codeWidth early k := by
    rw [codeWidth]
    split
    · simp; omega
    · split
      · simp; omega
      · split
        · simp; omega
        · simp; omega
  omega

theorem codeWidth_range (early : Bool) (k : Nat) : 9 ≤ codeWidth early k ∧ codeWidth early k ≤ 12 := by
  simp only [codeWidth]
  split
  · omega
  · split
    · omega
    · split <;> omega

theorem phraseBits_codes {early : Bool} {ps : List Bytes} {k : Nat} {bs : List Bool} (h : PhraseBits early ps k bs) : ∀ j, k ≤ j → j < ps.length → ∃ c, CodeOf ps j c := by
  induction h with
  | nil => intro j h1 h2; omega
  | @cons k c bs hc _ ih =>
    intro j h1 h2
    rcases Nat.eq_or_lt_of_le h1 with rfl | h1
    · exact ⟨c, hc⟩
    · exact ih j h1 h2

theorem codeOf_index {ps : List Bytes} {k c : Nat} (h : CodeOf ps k c) : k < ps.length := by
  cases h with
  | literal h => exact (List.getElem?_eq_some_iff.1 h).1
  | entry _ _ _ h => exact (List.getElem?_eq_some_iff.1 h).1

theorem phraseBits_le {early : Bool} {ps : List Bytes} {k : Nat} {bs : List Bool} (h : PhraseBits early ps k bs) : k ≤ ps.length := by
  cases h with
  | nil => exact Nat.le_refl _
  | cons h _ => exact Nat.le_of_lt (codeOf_index h)

/-- What the loop does with the codes of phrases. -/
theorem lzwLoop_phrases {early : Bool} {ps : List Bytes} (hlen : ps.length ≤ 3838) (hall : ∀ j, j < ps.length → ∃ c, CodeOf ps j c) {k : Nat} {bs : List Bool} (h : PhraseBits early ps k bs) :
    ∀ {s : LzwState}, At early ps k s → ∀ (f : Nat) (rest : List Bool), (bs ++ rest).length < f →
    ∃ s' f', At early ps ps.length s' ∧ rest.length < f' ∧
      lzwLoop early f s (bs ++ rest) = ((ps.drop k).flatten ++ (lzwLoop early f' s' rest).1, (lzwLoop early f' s' rest).2) := by
  induction h with
  | nil =>
    intro s hA f rest hf
    exact ⟨s, f, hA, by simpa using hf, by simp⟩
  | @cons k c bs hc hrest ih =>
    intro s hA f rest hf
    have hk : k < ps.length := codeOf_index hc
    obtain ⟨w1, w2⟩ := codeWidth_range early k
    obtain ⟨p, s1, hp, hs, hA1⟩ := lzwStep_phrase hA (by omega) (fun j hj => hall j (by omega)) hc
    simp only [List.length_append, numBits_length] at hf
    cases f with
    | zero => omega
    | succ f =>
      obtain ⟨s', f', hA', hf', e⟩ := ih hA1 f rest (by simp; omega)
      refine ⟨s', f', hA', hf', ?_⟩
      rw [lzwLoop, List.append_assoc, hA.width, if_neg (by simp [numBits_length]), List.take_left' (numBits_length _ _), List.drop_left' (numBits_length _ _), bitsVal_numBits (codeOf_lt hc (by omega)), hs]
      dsimp only
      rw [e]
      rw [List.drop_eq_getElem_cons hk]
      rw [List.getElem?_eq_getElem hk] at hp
      rw [List.flatten_cons, Option.some.inj hp, List.append_assoc]

theorem at_init (early : Bool) (ps : List Bytes) : At early ps 0 lzwInit :=
  ⟨rfl, by cases early <;> rfl, by cases early <;> rfl, fun _ => rfl, fun h => absurd h (by omega), fun i p b q h => by omega⟩

theorem lzwLoop_bits {early : Bool} {data : Bytes} {bs : List Bool} (h : LzwBits early data bs) : ∀ {s : LzwState}, (∀ ps, At early ps 0 s) → ∀ f, bs.length < f → lzwLoop early f s bs = (data, false) := by
  have hfit : ∀ {k c : Nat}, k ≤ 3838 → c < 258 → c < 2 ^ codeWidth early k := by
    intro k c _ hc
    obtain ⟨w1, -⟩ := codeWidth_range early k
    have : 2 ^ 9 ≤ 2 ^ codeWidth early k := Nat.pow_le_pow_right (by decide) w1
    omega
  induction h with
  | @last ps bs rest hlen hb =>
    intro s hA f hf
    obtain ⟨s', f', hA', hf', e⟩ := lzwLoop_phrases hlen (fun j hj => phraseBits_codes hb j (by omega) hj) hb (hA ps) f _ hf
    rw [e]
    cases f' with
    | zero => omega
    | succ f' =>
      rw [lzwLoop, hA'.width, if_neg (by simp [numBits_length]), List.take_left' (numBits_length _ _), bitsVal_numBits (hfit hlen (by decide)), lzwStep]
      simp
  | @clear ps bs data more hlen hb _ ih =>
    intro s hA f hf
    obtain ⟨s', f', hA', hf', e⟩ := lzwLoop_phrases hlen (fun j hj => phraseBits_codes hb j (by omega) hj) hb (hA ps) f _ hf
    rw [e]
    obtain ⟨w1, w2⟩ := codeWidth_range early ps.length
    simp only [List.length_append, numBits_length] at hf'
    cases f' with
    | zero => omega
    | succ f' =>
      rw [lzwLoop, hA'.width, if_neg (by simp [numBits_length]), List.take_left' (numBits_length _ _), List.drop_left' (numBits_length _ _), bitsVal_numBits (hfit hlen (by decide)), lzwStep]
      simp only [Nat.lt_irrefl, if_false, if_true]
      rw [ih (fun ps => ⟨rfl, by cases early <;> rfl, by cases early <;> rfl, fun _ => rfl, fun h => absurd h (by omega), fun i p b q h => by omega⟩) f' (by omega)]
      simp

theorem dataBits_length (d : Bytes) : (dataBits d).length = 8 * d.length := by
  induction d with
  | nil => rfl
  | cons b d ih =>
    have : dataBits (b :: d) = byteBits b ++ dataBits d := rfl
    rw [this, List.length_append, ih]
    simp [byteBits]; omega

/-! ### All data has an encoding -/

theorem snoc_induction {α : Type} {p : List α → Prop} (h0 : p []) (h1 : ∀ l a, p l → p (l ++ [a])) (l : List α) : p l := by
  have : ∀ m : List α, p m.reverse := by
    intro m
    induction m with
    | nil => exact h0
    | cons a m ih => rw [List.reverse_cons]; exact h1 _ _ ih
  have := this l.reverse
  rwa [List.reverse_reverse] at this

theorem numBits_bitsVal : ∀ (bs : List Bool), numBits bs.length (bitsVal bs) = bs := by
  intro bs
  induction bs using snoc_induction with
  | h0 => rfl
  | h1 bs b ih =>
    rw [List.length_append, List.length_singleton, numBits_succ, bitsVal_append]
    rw [show (2 * bitsVal bs + b.toNat) / 2 = bitsVal bs by cases b <;> simp <;> omega, ih, Nat.testBit_zero]
    congr 2
    cases b <;> simp <;> omega

theorem bitsVal_lt : ∀ (bs : List Bool), bitsVal bs < 2 ^ bs.length := by
  intro bs
  induction bs using snoc_induction with
  | h0 => decide
  | h1 bs b ih =>
    rw [List.length_append, List.length_singleton, bitsVal_append, Nat.pow_succ]
    cases b <;> simp <;> omega

theorem bytes_of_bits : ∀ (n : Nat) (bs : List Bool), bs.length = 8 * n → ∃ d : Bytes, toBits d = bs
  | 0, bs, h => ⟨[], by rw [List.eq_nil_of_length_eq_zero (by omega : bs.length = 0)]; rfl⟩
  | n + 1, bs, h => by
    obtain ⟨d, hd⟩ := bytes_of_bits n (bs.drop 8) (by rw [List.length_drop]; omega)
    have hl : (bs.take 8).length = 8 := by rw [List.length_take]; omega
    refine ⟨UInt8.ofNat (bitsVal (bs.take 8)) :: d, ?_⟩
    have h1 := bitsVal_lt (bs.take 8)
    rw [hl] at h1
    have h2 : (UInt8.ofNat (bitsVal (bs.take 8))).toNat = bitsVal (bs.take 8) := by
      rw [UInt8.toNat_ofNat']; omega
    have h3 := numBits_bitsVal (bs.take 8)
    rw [hl] at h3
    show numBits 8 _ ++ toBits d = bs
    rw [h2, h3, hd, List.take_append_drop]

/-- Phrases of one byte each. -/
theorem literal_bits (early : Bool) (d : Bytes) : ∀ n k, k + n = d.length → ∃ bs, PhraseBits early (d.map fun b => [b]) k bs
  | 0, k, h => ⟨[], by
    have : k = (d.map fun b => [b]).length := by rw [List.length_map]; omega
    rw [this]; exact .nil⟩
  | n + 1, k, h => by
    obtain ⟨bs, hb⟩ := literal_bits early d n (k + 1) (by omega)
    have hk : k < d.length := by omega
    exact ⟨_, .cons (.literal (b := d[k]) (by simp [hk])) hb⟩

theorem flatten_singletons (d : Bytes) : (d.map fun b => [b]).flatten = d := by
  induction d with
  | nil => rfl
  | cons b d ih => rw [List.map_cons, List.flatten_cons, ih]; rfl

theorem lzwBits_exists (early : Bool) : ∀ (n : Nat) (d : Bytes), d.length ≤ n → ∃ bs, ∀ rest, LzwBits early d (bs ++ rest)
  | n, d, hn => by
    by_cases hd : d.length ≤ 3838
    · obtain ⟨bs, hb⟩ := literal_bits early d d.length 0 (by omega)
      refine ⟨bs ++ numBits (codeWidth early (d.map fun b => [b]).length) 257, fun rest => ?_⟩
      have := LzwBits.last (rest := rest) (by simpa using hd) hb
      rwa [flatten_singletons, ← List.append_assoc] at this
    · cases n with
      | zero => omega
      | succ n =>
        obtain ⟨bs, hb⟩ := literal_bits early (d.take 3838) (d.take 3838).length 0 (by omega)
        obtain ⟨more, hm⟩ := lzwBits_exists early n (d.drop 3838) (by rw [List.length_drop]; omega)
        refine ⟨bs ++ (numBits (codeWidth early ((d.take 3838).map fun b => [b]).length) 256 ++ more), fun rest => ?_⟩
        have := LzwBits.clear (by rw [List.length_map, List.length_take]; omega) hb (hm rest)
        rw [flatten_singletons, List.take_append_drop] at this
        simpa using this

theorem isLzw_exists (early : Bool) (d : Bytes) : ∃ enc, IsLzw early d enc := by
  obtain ⟨bs, hb⟩ := lzwBits_exists early d.length d (Nat.le_refl _)
  obtain ⟨enc, he⟩ := bytes_of_bits (bs.length + 7) (bs ++ List.replicate (8 * (bs.length + 7) - bs.length) false) (by simp; omega)
  exact ⟨enc, by rw [IsLzw, he]; exact hb _⟩

/-- The readers undo LZW encodings. -/
theorem lzwReader_isLzw {early : Bool} {data enc : Bytes} (h : IsLzw early data enc) : lzwReader early enc = (data, false) :=
  lzwLoop_bits h (at_init early) _ (by rw [toBits_eq, dataBits_length]; omega)

end Pdf
