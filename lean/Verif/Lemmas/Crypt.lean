import Verif.Lemmas.Getters
import Verif.Lemmas.MapStr
import Verif.Model.Crypt
/-!
RC4, CBC and key derivation lemmas.
-/

namespace Pdf
open Spec St

theorem rc4Stream_length (n : Nat) (i j : UInt8) (st : Bytes) : (rc4Stream n i j st).length = n := by
  induction n generalizing i j st with
  | zero => rfl
  | succ n ih => rw [rc4Stream]; simp only [List.length_cons, ih]

theorem rc4_length (key data : Bytes) : (rc4 key data).length = data.length := by
  rw [rc4, List.length_zipWith, rc4Stream_length, Nat.min_self]

theorem xor_self_u8 (a b : UInt8) : (a ^^^ b) ^^^ b = a := by
  apply UInt8.toBitVec_inj.1
  simp [BitVec.xor_assoc]

theorem zipWith_xor_xor : ∀ (p k : Bytes), p.length ≤ k.length →
    List.zipWith (· ^^^ ·) (List.zipWith (· ^^^ ·) p k) k = p
  | [], _, _ => by simp
  | a :: p, [], h => by simp at h
  | a :: p, b :: k, h => by
    simp only [List.zipWith_cons_cons, xor_self_u8, List.cons.injEq, true_and]
    exact zipWith_xor_xor p k (by simpa using h)

theorem rc4_rc4 (key data : Bytes) : rc4 key (rc4 key data) = data := by
  conv => lhs; rw [rc4, rc4_length]
  rw [rc4]
  exact zipWith_xor_xor _ _ (by rw [rc4Stream_length]; exact Nat.le_refl _)

theorem cbcEnc_length {enc : Bytes → Bytes} (henc : ∀ b, b.length = 16 → (enc b).length = 16) : ∀ (k : Nat) (iv p : Bytes),
    iv.length = 16 → p.length = 16 * k → (cbcEnc enc k iv p).length = 16 * k
  | 0, _, _, _, _ => rfl
  | k + 1, iv, p, hiv, hp => by
    have h16 : (enc (List.zipWith (· ^^^ ·) (p.take 16) iv)).length = 16 := henc _ (by rw [List.length_zipWith, List.length_take, hiv]; omega)
    rw [cbcEnc]
    simp only [List.length_append]
    rw [h16, cbcEnc_length henc k _ _ h16 (by rw [List.length_drop]; omega)]; omega

theorem cbcDec_cbcEnc {enc block : Bytes → Bytes} (henc : ∀ b, b.length = 16 → (enc b).length = 16)
    (hinv : ∀ b, b.length = 16 → block (enc b) = b) : ∀ (k : Nat) (iv p : Bytes),
    iv.length = 16 → p.length = 16 * k → cbcDec block k iv (cbcEnc enc k iv p) = p
  | 0, _, p, _, hp => by rw [cbcDec]; exact (List.length_eq_zero_iff.1 (by omega)).symm
  | k + 1, iv, p, hiv, hp => by
    have hz : (List.zipWith (· ^^^ ·) (p.take 16) iv).length = 16 := by rw [List.length_zipWith, List.length_take, hiv]; omega
    have h16 := henc _ hz
    rw [cbcEnc, cbcDec]
    rw [List.take_left' h16, List.drop_left' h16, hinv _ hz]
    rw [cbcDec_cbcEnc henc hinv k _ _ h16 (by rw [List.length_drop]; omega)]
    rw [zipWith_xor_xor _ _ (by rw [List.length_take, hiv]; omega)]
    exact List.take_append_drop _ p

theorem pad16_length (p : Bytes) : (pad16 p).length = 16 * (p.length / 16 + 1) := by
  rw [pad16, List.length_append, List.length_replicate]; omega

theorem ofNat_u8 {a b : Nat} (h : a % 256 = b % 256) : UInt8.ofNat a = UInt8.ofNat b := by
  apply UInt8.toNat_inj.1
  rw [UInt8.toNat_ofNat', UInt8.toNat_ofNat']; exact h

theorem le32_eq (n : Int) : le32 n = lowBytes 4 n := by
  have k0 : UInt8.ofNat (n % 4294967296).toNat = UInt8.ofNat (n / 256 ^ 0 % 256).toNat :=
    ofNat_u8 (by rw [show (256 : Int) ^ 0 = 1 from rfl]; omega)
  have k1 : UInt8.ofNat ((n % 4294967296).toNat / 256) = UInt8.ofNat (n / 256 ^ 1 % 256).toNat :=
    ofNat_u8 (by rw [show (256 : Int) ^ 1 = 256 from rfl]; omega)
  have k2 : UInt8.ofNat ((n % 4294967296).toNat / 65536) = UInt8.ofNat (n / 256 ^ 2 % 256).toNat :=
    ofNat_u8 (by rw [show (256 : Int) ^ 2 = 65536 from rfl]; omega)
  have k3 : UInt8.ofNat ((n % 4294967296).toNat / 16777216) = UInt8.ofNat (n / 256 ^ 3 % 256).toNat :=
    ofNat_u8 (by rw [show (256 : Int) ^ 3 = 16777216 from rfl]; omega)
  simp only [le32, lowBytes, List.range, List.range.loop, List.map]
  rw [k0, k1, k2, k3]

theorem lowBytes_take (k m : Nat) (n : Int) (h : k ≤ m) : (lowBytes m n).take k = lowBytes k n := by
  rw [lowBytes, lowBytes, ← List.map_take, List.take_range, Nat.min_eq_left h]

theorem padPassword_eq (p : Bytes) : padPassword p = (p ++ padString).take 32 := by
  rw [padPassword]
  split
  · rename_i h
    rw [List.take_append, List.take_of_length_le (l := p) (by omega)]; rfl
  · rename_i h
    rw [List.take_append_of_le_length (by omega)]

theorem padPassword_take {p q : Bytes} (h : p.take 32 = q.take 32) : padPassword p = padPassword q := by
  have hl : min 32 p.length = min 32 q.length := by
    have := congrArg List.length h; simpa using this
  rw [padPassword, padPassword]
  by_cases hp : p.length < 32
  · have hpq : p = q := by
      rw [List.take_of_length_le (by omega), List.take_of_length_le (by omega)] at h; exact h
    rw [hpq]
  · rw [if_neg hp, if_neg (by omega), h]

theorem sliceTo_ok {b : Bytes} {n : Nat} (h : n ≤ b.length) : sliceTo b n = .ok (b.take n) := by
  rw [sliceTo, if_neg (by omega), Int.toNat_natCast]

theorem rehash_ok (ext : Ext) {n : Nat} (hn : n ≤ 16) : ∀ (k : Nat) (b : Bytes),
    rehash ext n k b = .ok (times (fun x => (ext.md5 x).take n) k b)
  | 0, b => rfl
  | k + 1, b => by
    rw [rehash, sliceTo_ok (by rw [ext.md5_length]; exact hn)]
    exact rehash_ok ext hn k _

/-- Key computation as in the specification. -/
theorem computeKey_ok (ext : Ext) (sh : SecHandler) (d : StdDict) (password : Bytes) (hn : d.n ≤ 16) (ho : sh.o = d.o) (hp : sh.p = lowBytes 4 d.p)
    (hid : sh.id = d.id) (hr : sh.r = d.r) (hem : sh.encryptMetadata = d.encryptMetadata) :
    computeKey ext sh password d.n = .ok (stdKey ext.md5 d password) := by
  rw [computeKey, ho, hp, hid, hr, hem, padPassword_eq]
  rw [sliceTo_ok (by rw [ext.md5_length]; exact hn), Res.bind_ok, stdKey]
  simp only [ge_iff_le]
  split
  · rw [rehash_ok ext hn]
  · rfl

theorem userRounds_eq (key : Bytes) : ∀ (n i : Nat) (u : Bytes),
    userRounds key n i u = (List.range' i n).foldl (fun x i => rc4 (roundKey key i) x) u
  | 0, _, _ => rfl
  | n + 1, i, u => by
    rw [userRounds, List.range'_succ, List.foldl_cons]
    exact userRounds_eq key n (i + 1) _

theorem foldl_rc4_length (key : Bytes) (l : List Nat) (u : Bytes) :
    (l.foldl (fun x i => rc4 (roundKey key i) x) u).length = u.length := by
  induction l generalizing u with
  | nil => rfl
  | cons i l ih => rw [List.foldl_cons, ih, rc4_length]

theorem computeKey_total (ext : Ext) (sh : SecHandler) (password : Bytes) {n : Int} (h0 : 0 ≤ n) (h1 : n ≤ 16) :
    ∃ k, computeKey ext sh password n = .ok k := by
  obtain ⟨m, rfl⟩ := Int.eq_ofNat_of_zero_le h0
  rw [computeKey]
  rw [show sliceTo _ (m : Int) = .ok _ from sliceTo_ok (by rw [ext.md5_length]; omega)]
  rw [Res.bind_ok]
  split
  · exact ⟨_, rehash_ok ext (by omega) _ _⟩
  · exact ⟨_, rfl⟩

theorem keyLength_bounds (v : Int) (l : Option Int) : 5 ≤ keyLength v l ∧ keyLength v l ≤ 16 := by
  rw [keyLength]
  split
  · omega
  · split <;> omega

end Pdf
