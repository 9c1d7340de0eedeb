import Verif.Lemmas.Xref
/-!
Cross reference streams: big-endian fields and the entries made of them.
-/

namespace Pdf
open Spec St

attribute [local irreducible] wrap64

theorem bigEndian_lt (l : Bytes) : bigEndian l < 256 ^ l.length := by
  induction l with
  | nil => simp [bigEndian]
  | cons b t ih =>
    rw [bigEndian, List.length_cons, Nat.pow_succ]
    have := b.toNat_lt
    have h : b.toNat * 256 ^ t.length ≤ 255 * 256 ^ t.length := Nat.mul_le_mul_right _ (by omega)
    omega

theorem foldBE (l : Bytes) : ∀ (x v : Int), IsInt64Of x v →
    IsInt64Of (x * 256 ^ l.length + bigEndian l) (l.foldl (fun v b => wrap64 (v * 256 + b.toNat)) v) := by
  induction l with
  | nil => intro x v h; simpa [bigEndian] using h
  | cons b t ih =>
    intro x v h
    have h1 : IsInt64Of (x * 256 + b.toNat) (wrap64 (v * 256 + b.toNat)) := by
      obtain ⟨-, -, k, hk⟩ := h
      obtain ⟨w1, w2, j, hj⟩ := wrap64_isInt64 (v * 256 + b.toNat)
      exact ⟨w1, w2, 256 * k + j, by omega⟩
    have := ih _ _ h1
    rw [List.foldl_cons]
    have e : x * 256 ^ (b :: t).length + (bigEndian (b :: t) : Nat) = (x * 256 + b.toNat) * 256 ^ t.length + (bigEndian t : Nat) := by
      rw [bigEndian, List.length_cons, Int.pow_succ, Int.add_mul, Int.natCast_add, Int.natCast_mul, Int.natCast_pow, Int.mul_assoc, Int.mul_comm (256 ^ t.length) 256,
        ← Int.mul_assoc, Int.add_assoc]
      simp
    rw [e]; exact this

theorem isInt64_zero : IsInt64Of 0 0 := ⟨by decide, by decide, 0, by decide⟩

theorem readBE_value {d : Bytes} {w : Nat} (h1 : w ≤ 2 ^ 48) (h2 : w ≤ d.length) :
    ∃ v, IsInt64Of (bigEndian (d.take w)) v ∧ readBE d w = .ok (some v, d.drop w) := by
  refine ⟨(d.take w).foldl (fun v b => wrap64 (v * 256 + b.toNat)) 0, ?_, ?_⟩
  · have := foldBE (d.take w) 0 0 isInt64_zero
    rw [Int.zero_mul, Int.zero_add] at this
    exact this
  · rw [readBE, if_neg (by omega), if_neg (by simp only [Int.toNat_natCast]; omega)]
    simp only [Int.toNat_natCast]

theorem toBigEndian_length (w n : Nat) : (toBigEndian w n).length = w := by
  induction w with
  | zero => rfl
  | succ w ih => rw [toBigEndian, List.length_cons, ih]

theorem bigEndian_toBigEndian (w n : Nat) : bigEndian (toBigEndian w n) = n % 256 ^ w := by
  induction w with
  | zero => rw [toBigEndian, bigEndian, Nat.pow_zero, Nat.mod_one]
  | succ w ih =>
    rw [toBigEndian, bigEndian, toBigEndian_length, ih, Nat.pow_succ, Nat.mod_mul]
    have : (UInt8.ofNat (n / 256 ^ w % 256)).toNat = n / 256 ^ w % 256 := by
      rw [UInt8.toNat_ofNat']; omega
    rw [this, Nat.mul_comm, Nat.add_comm]

theorem readBE_text {w n : Nat} (h1 : w ≤ 2 ^ 48) (h2 : n < 256 ^ w) (h3 : n < 2 ^ 63) (r : Bytes) :
    readBE (toBigEndian w n ++ r) w = .ok (some (n : Int), r) := by
  obtain ⟨v, hv, e⟩ := readBE_value (d := toBigEndian w n ++ r) (w := w) h1 (by simp [toBigEndian_length])
  rw [List.take_left' (toBigEndian_length w n), bigEndian_toBigEndian, Nat.mod_eq_of_lt h2] at hv
  rw [e, isInt64_unique h3 hv, List.drop_left' (toBigEndian_length w n)]

theorem ofRes_bind {σ α β : Type} {x : Res α} {a : α} (h : x = .ok a) (f : α → St σ β) (s : σ) : (St.ofRes x >>= f) s = f a s := by
  subst h; rfl

theorem streamEntries_text {w0 w1 w2 : Nat} (h0 : w0 ≤ 2 ^ 48) (h1 : w1 ≤ 2 ^ 48) (h2 : w2 ≤ 2 ^ 48) : ∀ (fs : List Field),
    (∀ f ∈ fs, Fits w0 w1 w2 f) → ∀ (a : Nat) (r : Bytes) (s : LS), a + fs.length < 2 ^ 63 →
    streamEntries w0 w1 w2 fs.length a (fieldBytes w0 w1 w2 fs ++ r) s =
      .ok (some r, { s with xref := setAll s.xref (numberedFields a fs) }) := by
  intro fs
  induction fs with
  | nil => intro _ a r s _; rfl
  | cons f fs ih =>
    intro hf a r s ha
    obtain ⟨b0, b1, b2, c0, c1, c2⟩ := hf f (by simp)
    have e0 : fieldBytes w0 w1 w2 (f :: fs) ++ r = toBigEndian w0 f.typ ++ (toBigEndian w1 f.offset ++ (toBigEndian w2 f.generation ++ (fieldBytes w0 w1 w2 fs ++ r))) := by
      simp [fieldBytes]
    rw [List.length_cons] at ha ⊢
    rw [streamEntries, e0, ofRes_bind (readBE_text h0 b0 c0 _)]
    dsimp only
    rw [ofRes_bind (readBE_text h1 b1 c1 _)]
    dsimp only
    rw [ofRes_bind (readBE_text h2 b2 c2 _)]
    dsimp only
    rw [bind_of_ok (show setXref (a : Int) ⟨f.offset, f.generation, f.typ, true, false⟩ s = .ok ((), _) from rfl)]
    rw [wrap64_id (by omega) (by omega), show ((a : Int) + 1) = ((a + 1 : Nat) : Int) by omega]
    rw [ih (fun g hg => hf g (by simp [hg])) (a + 1) r _ (by omega)]
    rfl

theorem liftM_run {α : Type} {x : LS → M α} {s : LS} {a : α} {p : PS} (h : x s s.ps = .ok (a, p)) : liftM x s = .ok (a, { s with ps := p }) := by
  show (x s s.ps >>= fun p => Res.ok (p.1, { s with ps := p.2 })) = _
  rw [h]; rfl

theorem liftM_bind {α β : Type} {x : LS → M α} {k : α → L β} {s : LS} {a : α} {p : PS} (h : x s s.ps = .ok (a, p)) :
    (liftM x >>= k) s = k a { s with ps := p } := bind_of_ok (liftM_run h)

theorem nat_toInt {n : Nat} (h : n < 2 ^ 53) : F64.toInt (.fin (n : Rat)) = n := by
  have := signed_toInt false h
  rw [signed_eq, intNum] at this
  simpa using this

theorem indexOf_at (pre : List (Nat × List Field)) (a : Nat) (fs : List Field) (ss : List (Nat × List Field)) :
    (indexOf (pre ++ (a, fs) :: ss))[2 * pre.length]? = some (.num (.fin (a : Nat))) ∧
      (indexOf (pre ++ (a, fs) :: ss))[2 * pre.length + 1]? = some (.num (.fin (fs.length : Nat))) := by
  have hl : (indexOf pre).length = 2 * pre.length := by
    induction pre with
    | nil => rfl
    | cons p pre ih => rw [show indexOf (p :: pre) = [.num (.fin (p.1 : Nat)), .num (.fin (p.2.length : Nat))] ++ indexOf pre from rfl, List.length_append, ih]; simp; omega
  have e : indexOf (pre ++ (a, fs) :: ss) = indexOf pre ++ (.num (.fin (a : Nat)) :: .num (.fin (fs.length : Nat)) :: indexOf ss) := by
    simp [indexOf]
  rw [e, ← hl]
  constructor
  · rw [List.getElem?_append_right (Nat.le_refl _)]; simp
  · rw [List.getElem?_append_right (Nat.le_add_right _ _)]; simp

theorem indexOf_length (ss : List (Nat × List Field)) : (indexOf ss).length = 2 * ss.length := by
  induction ss with
  | nil => rfl
  | cons p ss ih =>
    rw [show indexOf (p :: ss) = [.num (.fin (p.1 : Nat)), .num (.fin (p.2.length : Nat))] ++ indexOf ss from rfl, List.length_append, ih]; simp; omega

theorem streamSections_text (cfg : Cfg) (rs : Env → Resolver) {w0 w1 w2 : Nat} (h0 : w0 ≤ 2 ^ 48) (h1 : w1 ≤ 2 ^ 48) (h2 : w2 ≤ 2 ^ 48) :
    ∀ (ss pre : List (Nat × List Field)), (∀ p ∈ ss, p.1 + p.2.length < 2 ^ 53 ∧ ∀ f ∈ p.2, Fits w0 w1 w2 f) → ∀ (r : Bytes) (s : LS),
    streamSections cfg rs (indexOf (pre ++ ss)) w0 w1 w2 ss.length ((2 * pre.length : Nat) : Int) (dataOf w0 w1 w2 ss ++ r) s =
      .ok (true, { s with xref := setAll s.xref (listedFields ss) }) := by
  intro ss
  induction ss with
  | nil => intro pre _ r s; rfl
  | cons p ss ih =>
    intro pre hf r s
    obtain ⟨a, fs⟩ := p
    obtain ⟨ha, hfs⟩ := hf (a, fs) (by simp)
    dsimp only at ha hfs
    obtain ⟨i0, i1⟩ := indexOf_at pre a fs ss
    have nr : ∀ (x : F64) (n g : Int), Obj.num x ≠ .ref n g := by intro x n g h; cases h
    rw [List.length_cons, streamSections, liftM_bind (Arr.getInt_direct _ i0 (nr _))]
    simp only [Obj.asNum?, Option.map_some]
    rw [show ((2 * pre.length : Nat) : Int) + 1 = ((2 * pre.length + 1 : Nat) : Int) by omega, liftM_bind (Arr.getInt_direct _ i1 (nr _))]
    simp only [Obj.asNum?, Option.map_some]
    rw [nat_toInt (by omega), nat_toInt (by omega), Int.toNat_natCast]
    rw [show dataOf w0 w1 w2 ((a, fs) :: ss) ++ r = fieldBytes w0 w1 w2 fs ++ (dataOf w0 w1 w2 ss ++ r) by simp [dataOf]]
    rw [bind_of_ok (streamEntries_text h0 h1 h2 fs hfs a _ _ (by omega))]
    dsimp only
    rw [show ((2 * pre.length : Nat) : Int) + 2 = ((2 * (pre ++ [(a, fs)]).length : Nat) : Int) by simp; omega]
    rw [show pre ++ (a, fs) :: ss = (pre ++ [(a, fs)]) ++ ss by simp]
    rw [ih (pre ++ [(a, fs)]) (fun p hp => hf p (by simp [hp])) r]
    simp only [show listedFields ((a, fs) :: ss) = numberedFields a fs ++ listedFields ss from rfl, setAll_append]

/-- a header is not the keyword `xref` -/
theorem header_keyword {ds gs : List Nat} {h : Bytes} (hh : HeaderText ds gs h) {file r : Bytes} {s : PS} (hl : rest file s = h ++ r) :
    (readKeyword file s).1 ≠ b!"xref" := by
  rw [(readKeyword_spec file s).1, hl]
  cases hh with
  | @mk w _ w1 _ w2 hw hd hne =>
    cases ds with
    | nil => exact absurd rfl hne
    | cons d ds =>
      obtain ⟨f1, f2, -, -, f3, f4, -⟩ := decDigit_facts (hd d (by simp))
      intro h
      simp only [lKeyword] at h
      rw [List.append_assoc, drop_blank hw, List.map_cons] at h
      simp only [List.cons_append] at h
      rw [skipWs_cons f4 f3, List.drop_zero, kwGo] at h
      split at h
      · cases h
      · injection h with h
        revert f1; rw [h]; decide

end Pdf
