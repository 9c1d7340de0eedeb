import Verif.Lemmas.Rc4
import Verif.Lemmas.Crypt
import Verif.Lemmas.Grammar
import Verif.Props.Stream
import Verif.Model.Xref
import Verif.Model.Concrete
import Verif.Lemmas.Assoc
/-!
C35–C41: decryption and the standard security handler.
-/

namespace Pdf.Props
open Pdf Spec St

/- the order of the loop over crypt filters -/
variable {ord : Order}

/-! ### C35 -/

/-- **C35** RC4 undoes RC4 under the same key, and keeps the length. -/
theorem C35_decrypt (ext : Ext) (verbose : Option Bool) (key p : Bytes) :
    decrypt ext verbose (.rc4 key) (rc4 key p) = .ok p ∧ ∀ x, decrypt ext verbose (.rc4 key) p = .ok x → x.length = p.length := by
  refine ⟨?_, ?_⟩
  · rw [decrypt, rc4_rc4]
  · intro x hx
    rw [decrypt] at hx
    cases hx
    exact rc4_length _ _

/-- **C35** Data encrypted with RC4 (`Spec.Rc4`: key scheduling, then one byte of key stream for each byte) is decrypted to what it was, and to nothing else. -/
theorem C35_cipher (ext : Ext) (verbose : Option Bool) {key p c : Bytes} : IsRc4 key p c ↔ decrypt ext verbose (.rc4 key) c = .ok p := by
  rw [decrypt, Res.ok.injEq]
  constructor
  · intro h
    rw [IsRc4.unique h (rc4_isRc4 key p), rc4_rc4]
  · rintro rfl
    have := rc4_isRc4 key (rc4 key c)
    rwa [rc4_rc4] at this

/-- The key `Key`, the text `Plaintext`: a published test vector of RC4. -/
example : IsRc4 b!"Key" b!"Plaintext" [0xbb, 0xf3, 0x16, 0xe8, 0xd9, 0x40, 0xaf, 0x0a, 0xd3] := by
  have h : rc4 b!"Key" b!"Plaintext" = [0xbb, 0xf3, 0x16, 0xe8, 0xd9, 0x40, 0xaf, 0x0a, 0xd3] := by decide +kernel
  rw [← h]
  exact rc4_isRc4 _ _

/-- **C35** An object spelled with all its strings encrypted is read as the object with the plain
strings. -/
theorem C35_object (ext : Ext) (verbose : Option Bool) (key : Bytes) {o : Obj} {t r w : Bytes} {e : List Err}
    (h : ObjAt (mapStr (rc4 key) o) t r e) (hw : Blank w) (file : Bytes) (s : PS) (hin : file.drop s.pos = w ++ (t ++ r)) :
    ∃ s', readObj file (decrypt ext verbose (.rc4 key)) s = .ok ((o, .nil), s') ∧ s'.pos = s.pos + w.length + t.length ∧ s'.log = s.log ++ e := by
  obtain ⟨f, hf⟩ := objAt_read h
  have hb := lObj_blank_ok hw hf
  have hd : ∀ b, decrypt ext verbose (.rc4 key) b = .ok (rc4 key b) := fun b => rfl
  have hd' := (lObj_mapStr hd f).1 (w ++ (t ++ r))
  rw [hb] at hd'
  obtain ⟨s', h1, h2, h3⟩ := readObj_of_lObj (fun b => by rw [hd b]; exact fun h => by cases h) hin hd'
  refine ⟨s', ?_, by rw [h2]; simp only; omega, h3⟩
  rw [h1]
  simp only [mapRes]
  rw [mapStr_comp (k := fun b => b) (fun b => rc4_rc4 key b), mapStr_id (fun b => rfl)]

/-- **C35** If the stream data in the file is the encryption of `p`, reading the stream yields `p`. -/
theorem C35_stream (ext : Ext) (verbose : Option Bool) (key p : Bytes) (file : Bytes) (cd : Codecs) (rs : Resolver) (s s' : PS)
    (h : readStream file cd rs noDec [] [] s = .ok (some (rc4 key p), s')) :
    readStream file cd rs (decrypt ext verbose (.rc4 key)) [] [] s = .ok (some p, s') := by
  cases hr : (readStreamRaw file s).1 with
  | none =>
    have h1 : ∀ dec, readStream file cd rs dec [] [] s = .ok (some [], (readStreamRaw file s).2) := by
      intro dec
      rw [readStream, bind_run, ofFun_run]
      show (match (readStreamRaw file s).1 with | none => _ | some raw => _ : M (Option Bytes)) (readStreamRaw file s).2 = _
      rw [hr]; rfl
    rw [h1] at h ⊢
    injection h with h
    injection h with h2 h3
    injection h2 with h2
    have hp : p = [] := List.length_eq_zero_iff.1 (by rw [← rc4_length key p, ← h2]; rfl)
    rw [hp, h3]
  | some v =>
    have h0 := readStream_raw (cd := cd) (rs := rs) (dec := noDec) hr rfl
    rw [h0] at h
    injection h with h
    injection h with h2 h3
    injection h2 with h2
    have h4 := readStream_raw (cd := cd) (rs := rs) (dec := decrypt ext verbose (.rc4 key)) (p := p) hr (by
      rw [show v = rc4 key p from h2]; exact (C35_decrypt ext verbose key p).1)
    rw [h4, h3]

/-- `(A)` under the key 01 02 03 04 05 may be spelled `<f3>`. -/
example : ObjAt (mapStr (rc4 [1, 2, 3, 4, 5]) (.str b!"A")) b!"<f3>" [] [] := by
  have h : mapStr (rc4 [1, 2, 3, 4, 5]) (.str b!"A") = .str (hexPairs [15, 3]) := by decide +kernel
  rw [h]
  exact .hex (t := b!"f3") (.digit ⟨by decide, .inl (by decide)⟩ (.digit ⟨by decide, .inl (by decide)⟩ .nil))

/-! ### C36 -/

/-- `enc` and the AES block decryption under `key` are inverse on blocks. -/
structure Inverse (ext : Ext) (key : Bytes) (enc : Bytes → Bytes) : Prop where
  length : ∀ b, b.length = 16 → (enc b).length = 16
  inv : ∀ b, b.length = 16 → ext.aesBlock key (enc b) = b

theorem aes_result {ext : Ext} {key : Bytes} {enc : Bytes → Bytes} (h : Inverse ext key enc) (hk : key.length = 16) {iv : Bytes} (hiv : iv.length = 16)
    (verbose : Option Bool) (p : Bytes) : decrypt ext verbose (.aes key) (aesEncrypt enc iv p) = .ok (iv ++ pad16 p) := by
  have hpl := pad16_length p
  have hdiv : (pad16 p).length / 16 = p.length / 16 + 1 := by omega
  have hcl : (cbcEnc enc (p.length / 16 + 1) iv (pad16 p)).length = 16 * (p.length / 16 + 1) := cbcEnc_length h.length _ _ _ hiv hpl
  have hlen : (aesEncrypt enc iv p).length = 16 + 16 * (p.length / 16 + 1) := by
    rw [aesEncrypt, List.length_append, hiv, hdiv, hcl]
  rw [decrypt, if_neg (by omega), if_neg (by rintro (h1 | h1) <;> omega)]
  rw [hlen, show (16 + 16 * (p.length / 16 + 1) - 16) / 16 = p.length / 16 + 1 by omega, aesEncrypt, hdiv,
    List.take_left' hiv, List.drop_left' hiv, cbcDec_cbcEnc h.length h.inv _ _ _ hiv hpl]

/-- **C36 fails**, always: what `Decrypt` leaves is never the plaintext. -/
theorem C36_false {ext : Ext} {key : Bytes} {enc : Bytes → Bytes} (h : Inverse ext key enc) (hk : key.length = 16) {iv : Bytes} (hiv : iv.length = 16)
    (verbose : Option Bool) (p : Bytes) : decrypt ext verbose (.aes key) (aesEncrypt enc iv p) ≠ .ok p := by
  rw [aes_result h hk hiv]
  intro he
  injection he with he
  have := congrArg List.length he
  rw [List.length_append, hiv, pad16_length] at this
  omega

/-- **C36, partial** The result is the initialisation vector, then the plaintext, then its padding.
Missing: removal of the two. -/
theorem C36_aes_partial {ext : Ext} {key : Bytes} {enc : Bytes → Bytes} (h : Inverse ext key enc) (hk : key.length = 16) {iv : Bytes} (hiv : iv.length = 16)
    (verbose : Option Bool) (p : Bytes) :
    ∃ pad, 1 ≤ pad.length ∧ pad.length ≤ 16 ∧ decrypt ext verbose (.aes key) (aesEncrypt enc iv p) = .ok (iv ++ (p ++ pad)) :=
  ⟨List.replicate (16 - p.length % 16) (UInt8.ofNat (16 - p.length % 16)), by rw [List.length_replicate]; omega, by rw [List.length_replicate]; omega,
    by rw [aes_result h hk hiv, pad16]⟩

/-- **C36, partial** Data that cannot be an encryption (no whole blocks after the vector) is returned
as it is; no data makes `Decrypt` panic when the `-v` flag has been set up. -/
theorem C36_other_partial (ext : Ext) (v : Bool) (key data : Bytes) :
    (data.length % 16 ≠ 0 ∨ data.length ≤ 16 → decrypt ext (some v) (.aes key) data = .ok data) ∧
    ∃ x, decrypt ext (some v) (.aes key) data = .ok x := by
  refine ⟨?_, ?_⟩
  · intro h
    rw [decrypt]
    split
    · rfl
    · rw [if_pos (.inr (by omega))]; rfl
  · rw [decrypt]
    split
    · exact ⟨_, rfl⟩
    · split
      · exact ⟨_, rfl⟩
      · exact ⟨_, rfl⟩

/-- The stand-in block function of `Concrete.ext` has an inverse. -/
example : Inverse Concrete.ext (List.replicate 16 7) (fun b => b) :=
  ⟨fun _ h => h, fun b h => by show (b ++ List.replicate 16 0).take 16 = b; exact List.take_left' h⟩

/-! ### C37 -/

/-- **C37** The key for an object is the one of Algorithm 1. -/
theorem C37_object_keys (ext : Ext) (key : Bytes) (n g : Int) :
    newDecryptor ext (.rc4 key) n g = .rc4 (objectKey ext.md5 key n g false) ∧
    newDecryptor ext (.aes key) n g = .aes (objectKey ext.md5 key n g true) ∧
    newDecryptor ext .none n g = .none := by
  refine ⟨?_, ?_, rfl⟩
  · rw [newDecryptor, objectKey, le32_eq, le32_eq, lowBytes_take 3 4 n (by omega), lowBytes_take 2 4 g (by omega)]
    simp
  · rw [newDecryptor, objectKey, le32_eq, le32_eq, lowBytes_take 3 4 n (by omega), lowBytes_take 2 4 g (by omega)]
    simp

/-- **C37** Numbers that agree in their low 24 and 16 bits have the same key. -/
theorem C37_low_bits (ext : Ext) (cf : CryptFilter) {n n' g g' : Int} (hn : n % 16777216 = n' % 16777216) (hg : g % 65536 = g' % 65536) :
    newDecryptor ext cf n g = newDecryptor ext cf n' g' := by
  have h3 : lowBytes 3 n = lowBytes 3 n' := by
    simp only [lowBytes, List.range, List.range.loop, List.map]
    rw [show n / 256 ^ 0 % 256 = n' / 256 ^ 0 % 256 by rw [show (256 : Int) ^ 0 = 1 from rfl]; omega,
      show n / 256 ^ 1 % 256 = n' / 256 ^ 1 % 256 by rw [show (256 : Int) ^ 1 = 256 from rfl]; omega,
      show n / 256 ^ 2 % 256 = n' / 256 ^ 2 % 256 by rw [show (256 : Int) ^ 2 = 65536 from rfl]; omega]
  have h2 : lowBytes 2 g = lowBytes 2 g' := by
    simp only [lowBytes, List.range, List.range.loop, List.map]
    rw [show g / 256 ^ 0 % 256 = g' / 256 ^ 0 % 256 by rw [show (256 : Int) ^ 0 = 1 from rfl]; omega,
      show g / 256 ^ 1 % 256 = g' / 256 ^ 1 % 256 by rw [show (256 : Int) ^ 1 = 256 from rfl]; omega]
  cases cf with
  | none => rfl
  | rc4 key => rw [(C37_object_keys ext key n g).1, (C37_object_keys ext key n' g').1, objectKey, objectKey, h3, h2]
  | aes key => rw [(C37_object_keys ext key n g).2.1, (C37_object_keys ext key n' g').2.1, objectKey, objectKey, h3, h2]

example : (16777216 + 5 : Int) % 16777216 = 5 % 16777216 := by decide

/-! ### C38 -/

theorem keyLength_eq {v : Int} {n : Nat} {bits : Option Int} (h : (n : Int) = if v = 1 then 5 else max 5 (min 16 (bits.getD 40 / 8))) :
    keyLength v (if v = 1 then none else bits) = n := by
  rw [h, keyLength]
  by_cases hv : v = 1
  · simp only [hv, if_true]; decide
  · simp only [if_neg hv]
    have : (bits.getD 40).tdiv 8 = if 0 ≤ bits.getD 40 then bits.getD 40 / 8 else - (-bits.getD 40 / 8) := by
      split
      · exact Int.tdiv_eq_ediv_of_nonneg ‹_›
      · rw [← Int.tdiv_eq_ediv_of_nonneg (by omega), Int.neg_tdiv, Int.neg_neg]
    rw [this]
    split <;> split <;> (try split) <;> omega

/-- the handler when the password is verified -/
def shAfter (ext : Ext) (d : StdDict) (password : Bytes) (sh : SecHandler) : SecHandler :=
  { sh with v := d.v, r := d.r, length := d.n, o := d.o, u := d.u, p := lowBytes 4 d.p, encryptMetadata := d.encryptMetadata, id := d.id,
            key := stdKey ext.md5 d password }

theorem secInit_run {ext : Ext} {rs : SecHandler → Resolver} {trailer enc : Dict} {d : StdDict} (h : Describes rs trailer enc d)
    (password : Bytes) (sh : SecHandler) (s : PS) :
    ∃ s', secInit ext rs ord password trailer sh s =
      (St.ofRes (verifyKey ext (shAfter ext d password sh)) >>= fun good =>
        if good = false then pure (some .passwordError, shAfter ext d password sh)
        else setFilters ext rs ord password enc (shAfter ext d password sh) >>= fun sh => pure (none, sh)) s' := by
  obtain ⟨bits, hbits, hn⟩ := h.length
  obtain ⟨em, hem, hemd⟩ := h.em
  obtain ⟨ids, hids, hid⟩ := h.id
  have h16 : d.n ≤ 16 := by split at hn <;> omega
  rw [secInit]
  obtain ⟨s1, h1⟩ := h.encrypt sh s
  rw [bind_of_ok h1]
  dsimp only
  obtain ⟨s2, h2⟩ := h.filter sh s1
  rw [bind_of_ok h2]
  dsimp only [Option.getD_some]
  rw [if_neg (by simp)]
  obtain ⟨s3, h3⟩ := h.v sh s2
  rw [bind_of_ok h3]
  dsimp only [Option.getD_some]
  have hv := h.v_ok
  have hr := h.r_ok
  rw [if_neg (by omega)]
  obtain ⟨s4, h4⟩ := h.r { sh with v := d.v } s3
  rw [bind_of_ok h4]
  dsimp only [Option.getD_some]
  rw [if_neg (by omega)]
  obtain ⟨s5, h5⟩ : ∃ s5, lengthEntry (rs { sh with v := d.v, r := d.r }) enc d.v s4 =
      .ok ((if d.v = 1 then none else bits), s5) := by
    rw [lengthEntry]
    by_cases hv1 : d.v = 1
    · rw [if_pos hv1, if_pos hv1]; exact ⟨_, rfl⟩
    · rw [if_neg hv1, if_neg hv1]; exact hbits _ _
  rw [bind_of_ok h5, keyLength_eq hn]
  obtain ⟨s6, h6⟩ := h.o { sh with v := d.v, r := d.r, length := d.n } s5
  rw [bind_of_ok h6]
  dsimp only
  obtain ⟨s7, h7⟩ := h.u { sh with v := d.v, r := d.r, length := d.n, o := d.o } s6
  rw [bind_of_ok h7]
  dsimp only
  obtain ⟨s8, h8⟩ := h.p { sh with v := d.v, r := d.r, length := d.n, o := d.o, u := d.u } s7
  rw [bind_of_ok h8]
  dsimp only
  obtain ⟨s9, h9⟩ := hem { sh with v := d.v, r := d.r, length := d.n, o := d.o, u := d.u, p := le32 d.p } s8
  rw [bind_of_ok h9]
  rw [← hemd]
  obtain ⟨s10, h10⟩ := hids { sh with v := d.v, r := d.r, length := d.n, o := d.o, u := d.u, p := le32 d.p, encryptMetadata := d.encryptMetadata } s9
  rw [bind_of_ok h10]
  dsimp only
  obtain ⟨s11, h11⟩ := hid { sh with v := d.v, r := d.r, length := d.n, o := d.o, u := d.u, p := le32 d.p, encryptMetadata := d.encryptMetadata } s10
  rw [bind_of_ok h11]
  dsimp only
  rw [computeKey_ok ext _ d password h16 rfl (le32_eq _) rfl rfl rfl]
  refine ⟨s11, ?_⟩
  rw [bind_of_ok (x := St.ofRes (.ok _)) rfl, le32_eq]
  rfl

theorem verifyKey_ok (ext : Ext) (d : StdDict) (password : Bytes) (sh : SecHandler) (hr : 2 ≤ d.r) (hu : 3 ≤ d.r → 16 ≤ d.u.length)
    (hr' : sh.r = d.r) (hk : sh.key = stdKey ext.md5 d password) (hu' : sh.u = d.u) (hid : sh.id = d.id) :
    ∃ b, verifyKey ext sh = .ok b ∧ (b = true ↔ UserPassword ext.md5 rc4 d password) := by
  rw [verifyKey, UserPassword, stdU, hr', hk, hu', hid]
  by_cases h2 : d.r = 2
  · rw [if_pos h2, if_pos h2]
    refine ⟨rc4 (stdKey ext.md5 d password) paddingString == d.u, rfl, ?_⟩
    rw [beq_iff_eq, if_pos h2]; exact eq_comm
  · rw [if_neg h2, if_neg h2]
    have hu := hu (by omega)
    rw [if_pos (by omega), firstSixteen, if_neg (by omega), Res.bind_ok, List.take_append_of_le_length hu]
    refine ⟨_, rfl, ?_⟩
    rw [beq_iff_eq, userRounds_eq, if_neg h2, List.range_eq_range']
    exact eq_comm

/-- **C38** A password that is not the user password is refused. -/
theorem C38_refuses (cfg : Cfg) {rs : Env → Resolver} {ls : LS} {enc : Dict} {d : StdDict}
    (h : Describes (fun sh => rs { ls.env cfg with sh := sh }) ls.trailer enc d) (hu : 3 ≤ d.r → 16 ≤ d.u.length)
    {password : Bytes} (hp : ¬ UserPassword cfg.ext.md5 rc4 d password) :
    ∃ ls', setPassword cfg rs ord password ls = .ok (some .passwordError, ls') := by
  obtain ⟨s', hs⟩ := secInit_run (ext := cfg.ext) h password ls.sh ls.ps
  obtain ⟨b, hb, hiff⟩ := verifyKey_ok cfg.ext d password (shAfter cfg.ext d password ls.sh) h.r_ok.1 hu rfl rfl rfl rfl
  have hbf : b = false := by cases b with | false => rfl | true => exact absurd (hiff.1 rfl) hp
  rw [hb, hbf] at hs
  rw [setPassword, hs]
  exact ⟨_, rfl⟩

/-- **C38** The user password is accepted: whatever `SetPassword` returns is no error. For revisions 2
and 3 it does return. (For revision 4 see `C40_partial`.) -/
theorem C38_accepts (cfg : Cfg) {rs : Env → Resolver} {ls : LS} {enc : Dict} {d : StdDict}
    (h : Describes (fun sh => rs { ls.env cfg with sh := sh }) ls.trailer enc d) (hu : 3 ≤ d.r → 16 ≤ d.u.length)
    {password : Bytes} (hp : UserPassword cfg.ext.md5 rc4 d password) :
    (∀ e ls', setPassword cfg rs ord password ls = .ok (e, ls') → e = none) ∧
    (d.r ≠ 4 → ∃ ls', setPassword cfg rs ord password ls = .ok (none, ls') ∧ ls'.sh.key = stdKey cfg.ext.md5 d password ∧
      ls'.sh.streamFilter = .rc4 (stdKey cfg.ext.md5 d password) ∧ ls'.sh.stringFilter = .rc4 (stdKey cfg.ext.md5 d password) ∧
      ls'.sh.fileFilter = .rc4 (stdKey cfg.ext.md5 d password)) := by
  obtain ⟨s', hs⟩ := secInit_run (ext := cfg.ext) h password ls.sh ls.ps
  obtain ⟨b, hb, hiff⟩ := verifyKey_ok cfg.ext d password (shAfter cfg.ext d password ls.sh) h.r_ok.1 hu rfl rfl rfl rfl
  rw [hb, hiff.2 hp] at hs
  rw [bind_of_ok (x := St.ofRes (.ok _)) rfl, if_neg (by decide)] at hs
  refine ⟨?_, ?_⟩
  · intro e ls' hr
    rw [setPassword, hs] at hr
    cases hx : setFilters cfg.ext (fun sh => rs { ls.env cfg with sh := sh }) ord password enc (shAfter cfg.ext d password ls.sh) s' with
    | ok q => rw [bind_of_ok (a := q.1) (t := q.2) hx] at hr; cases hr; rfl
    | panic w => rw [bind_of_panic hx] at hr; cases hr
    | oof => rw [bind_of_oof hx] at hr; cases hr
  · intro h4
    rw [setPassword, hs, setFilters]
    dsimp only
    rw [if_neg (show ¬ (shAfter cfg.ext d password ls.sh).r = 4 from h4)]
    exact ⟨_, rfl, rfl, rfl, rfl, rfl⟩

/-- An encryption dictionary with direct entries, as most files have. -/
def directEnc (v r bits p : Int) (o u : Bytes) : Dict :=
  [(b!"Filter", .name b!"Standard"), (b!"V", .num (.fin v)), (b!"R", .num (.fin r)), (b!"Length", .num (.fin bits)),
   (b!"O", .str o), (b!"U", .str u), (b!"P", .num (.fin p))]

theorem directEnc_describes {σ : Type} (rs : σ → Resolver) {v r bits p : Int} {n : Nat} {o u id : Bytes} {more : Dict}
    (hmore : Assoc.get? more b!"EncryptMetadata" = none)
    (hv : F64.toInt (.fin v) = v) (hr : F64.toInt (.fin r) = r) (hp : F64.toInt (.fin p) = p) (hb : F64.toInt (.fin bits) = bits)
    (hv' : v = 1 ∨ v = 2 ∨ v = 4) (hr' : 2 ≤ r ∧ r ≤ 4)
    (hn : (n : Int) = if v = 1 then 5 else max 5 (min 16 (bits / 8))) :
    Describes rs [(b!"Encrypt", .dict (directEnc v r bits p o u ++ more)), (b!"ID", .arr [.str id])] (directEnc v r bits p o u ++ more)
      ⟨v, r, n, o, u, p, id, true⟩ := by
  refine ⟨?_, ?_, ?_, ?_, hv', hr', ⟨some bits, ?_, hn⟩, ?_, ?_, ?_, ⟨none, ?_, rfl⟩, ⟨[.str id], ?_, ?_⟩⟩
  · exact fun h s => ⟨s, Dict.getDict_direct s (o := .dict (directEnc v r bits p o u ++ more)) rfl (by rintro n g ⟨⟩)⟩
  · exact fun h s => ⟨s, Dict.getName_direct s (o := .name b!"Standard") rfl (by rintro n g ⟨⟩)⟩
  · exact fun h s => ⟨s, (Dict.getInt_direct s (o := .num (.fin v)) rfl (by rintro n g ⟨⟩)).trans (by simp only [Obj.asNum?, Option.map_some, hv])⟩
  · exact fun h s => ⟨s, (Dict.getInt_direct s (o := .num (.fin r)) rfl (by rintro n g ⟨⟩)).trans (by simp only [Obj.asNum?, Option.map_some, hr])⟩
  · exact fun h s => ⟨s, (Dict.getInt_direct s (o := .num (.fin bits)) rfl (by rintro n g ⟨⟩)).trans (by simp only [Obj.asNum?, Option.map_some, hb])⟩
  · exact fun h s => ⟨s, Dict.getString_direct s (o := .str o) rfl (by rintro n g ⟨⟩)⟩
  · exact fun h s => ⟨s, Dict.getString_direct s (o := .str u) rfl (by rintro n g ⟨⟩)⟩
  · exact fun h s => ⟨s, (Dict.getInt_direct s (o := .num (.fin p)) rfl (by rintro n g ⟨⟩)).trans (by simp only [Obj.asNum?, Option.map_some, hp])⟩
  · exact fun h s => ⟨s, Dict.getBool_none s hmore⟩
  · exact fun h s => ⟨s, Dict.getArray_direct s (o := .arr [.str id]) rfl (by rintro n g ⟨⟩)⟩
  · exact fun h s => ⟨s, Arr.getString_direct (i := 0) (o := .str id) s rfl (by rintro n g ⟨⟩)⟩

/-- Revision 3, 128 bits, permissions -4: described, whatever O, U and the identifier are. -/
example (o u id : Bytes) (rs : SecHandler → Resolver) :
    Describes rs [(b!"Encrypt", .dict (directEnc 2 3 128 (-4) o u ++ [])), (b!"ID", .arr [.str id])] (directEnc 2 3 128 (-4) o u ++ [])
      ⟨2, 3, 16, o, u, -4, id, true⟩ :=
  directEnc_describes rs rfl (by decide) (by decide) (by decide) (by decide) (by decide) (by decide) (by decide)

/-- For every password there is a U entry that makes it the user password, and one that does not. -/
example (md5 : Bytes → Bytes) (o id password : Bytes) :
    UserPassword md5 rc4 ⟨2, 2, 5, o, stdU md5 rc4 ⟨2, 2, 5, o, [], -4, id, true⟩ password, -4, id, true⟩ password ∧
    ¬ UserPassword md5 rc4 ⟨2, 2, 5, o, [], -4, id, true⟩ password := by
  refine ⟨rfl, ?_⟩
  intro h
  rw [UserPassword, if_pos rfl, stdU, if_pos rfl] at h
  have := congrArg List.length h
  rw [rc4_length] at this
  exact absurd this (by simp [padString])

/-! ### C39 -/

/-- the filters and named filters -/
def SameFilters (a b : SecHandler) : Prop :=
  a.streamFilter = b.streamFilter ∧ a.stringFilter = b.stringFilter ∧ a.fileFilter = b.fileFilter ∧ a.cryptFilters = b.cryptFilters

theorem SameFilters.refl (a : SecHandler) : SameFilters a a := ⟨rfl, rfl, rfl, rfl⟩

theorem secInit_filters (ext : Ext) (rs : SecHandler → Resolver) (password : Bytes) (trailer : Dict) (sh : SecHandler) :
    Ret (fun p : Option EncErr × SecHandler => p.1 ≠ none → SameFilters p.2 sh) (secInit ext rs ord password trailer sh) := by
  rw [secInit]
  refine Ret.bind' fun a => ?_
  repeat' first
    | exact Ret.pure fun _ => ⟨rfl, rfl, rfl, rfl⟩
    | exact Ret.pure fun h => absurd rfl h
    | refine Ret.bind' fun _ => ?_
    | split
    | dsimp only

/-- **C39** When `SetPassword` returns an error, the filters are what they were; so are the trailer and
the cross reference table, whatever it returns. -/
theorem C39_unchanged (cfg : Cfg) (rs : Env → Resolver) (password : Bytes) (ls ls' : LS) (e : Option EncErr)
    (h : setPassword cfg rs ord password ls = .ok (e, ls')) :
    (e ≠ none → SameFilters ls'.sh ls.sh) ∧ ls'.trailer = ls.trailer ∧ ls'.xref = ls.xref := by
  rw [setPassword] at h
  cases hx : secInit cfg.ext (fun sh => rs { ls.env cfg with sh := sh }) ord password ls.trailer ls.sh ls.ps with
  | ok q =>
    rw [hx] at h
    cases h
    exact ⟨fun he => secInit_filters cfg.ext _ password ls.trailer ls.sh _ _ _ hx he, rfl, rfl⟩
  | panic w => rw [hx] at h; cases h
  | oof => rw [hx] at h; cases h

/-- A run that fails. -/
example (cfg : Cfg) (rs : Env → Resolver) : ∃ ls', setPassword cfg rs ord b!"x" LS.init = .ok (some .error, ls') := ⟨_, rfl⟩

/-! ### C40 -/

/-- **C40 fails**: a U entry of at most eight bytes panics for revision 3, with any password. -/
theorem C40_short_U_false (cfg : Cfg) (rs : Env → Resolver) {ls : LS} {enc : Dict} {d : StdDict}
    (h : Describes (fun sh => rs { ls.env cfg with sh := sh }) ls.trailer enc d) (hr : 3 ≤ d.r) (hu : d.u.length ≤ 8) (password : Bytes) :
    ∃ w, setPassword cfg rs ord password ls = .panic w := by
  obtain ⟨s', hs⟩ := secInit_run (ext := cfg.ext) h password ls.sh ls.ps
  have hv : verifyKey cfg.ext (shAfter cfg.ext d password ls.sh) = .panic "slice bounds out of range" := by
    rw [verifyKey, show (shAfter cfg.ext d password ls.sh).r = d.r from rfl, if_neg (by omega), if_pos (by omega),
      show (shAfter cfg.ext d password ls.sh).u = d.u from rfl, firstSixteen, if_pos hu]
    rfl
  rw [hv] at hs
  rw [setPassword, hs]
  exact ⟨_, rfl⟩

/-- a crypt filter of 17 bytes -/
def longCF : Dict := [(b!"StdCF", .dict [(b!"CFM", .name b!"V2"), (b!"Length", .num (.fin 17))])]

theorem longCF_panic (ext : Ext) (rs : SecHandler → Resolver) (password : Bytes) (enc : Dict) (sh : SecHandler) (s : PS) (hr : sh.r = 4)
    (hcf : Assoc.get? enc b!"CF" = some (.dict longCF)) : setFilters ext rs ord password enc sh s = .panic "slice bounds out of range" := by
  rw [setFilters, if_pos hr]
  rw [bind_of_ok (Dict.getDict_direct s hcf (by rintro n g ⟨⟩))]
  apply bind_of_panic
  rw [show (Obj.asDict? (.dict longCF)).getD [] = longCF from rfl, longCF, visit_one, loadCryptFilters]
  apply bind_of_panic
  rw [loadCryptFilter]
  rw [bind_of_ok (Dict.getName_direct (o := .name b!"V2") s rfl (by rintro n g ⟨⟩))]
  dsimp only [Obj.asName?]
  rw [bind_of_ok (Dict.getInt_direct (o := .num (.fin 17)) s rfl (by rintro n g ⟨⟩))]
  rw [if_neg (by decide), if_pos rfl]
  apply bind_of_panic
  have h17 : ∀ x : Int, (Option.map F64.toInt (Obj.asNum? (.num (.fin 17)))).getD x = 17 := fun x => by
    show F64.toInt (.fin 17) = 17
    decide
  rw [h17, computeKey, sliceTo,
    if_pos (.inr (by rw [ext.md5_length]; decide))]
  rfl

theorem stdU_u (md5 : Bytes → Bytes) (c : Bytes → Bytes → Bytes) (v r : Int) (n : Nat) (o u u' : Bytes) (p : Int) (id : Bytes) (em : Bool) (password : Bytes) :
    stdU md5 c ⟨v, r, n, o, u, p, id, em⟩ password = stdU md5 c ⟨v, r, n, o, u', p, id, em⟩ password := rfl

/-- **C40 fails**: a crypt filter with a /Length above 16 panics when the password is right. -/
theorem C40_filter_length_false (cfg : Cfg) (rs : Env → Resolver) (o id password : Bytes) :
    ∃ ls w, setPassword cfg rs ord password ls = .panic w := by
  obtain ⟨u, hu⟩ : ∃ u, u = stdU cfg.ext.md5 rc4 ⟨4, 4, 16, o, [], -4, id, true⟩ password := ⟨_, rfl⟩
  have hul : u.length = 16 := by
    rw [hu, stdU]
    show (if (4 : Int) = 2 then _ else _ : Bytes).length = 16
    rw [if_neg (by decide), foldl_rc4_length, cfg.ext.md5_length]
  have hup : UserPassword cfg.ext.md5 rc4 ⟨4, 4, 16, o, u, -4, id, true⟩ password := by
    rw [UserPassword]
    show if (4 : Int) = 2 then _ else u.take 16 = _
    rw [if_neg (by decide), List.take_of_length_le (by omega), hu]
    exact stdU_u _ _ _ _ _ _ _ _ _ _ _ _
  obtain ⟨ls, hls⟩ : ∃ ls : LS, ls.trailer = [(b!"Encrypt", .dict (directEnc 4 4 128 (-4) o u ++ [(b!"CF", .dict longCF)])), (b!"ID", .arr [.str id])] :=
    ⟨{ LS.init with trailer := _ }, rfl⟩
  have hd : Describes (fun sh => rs { ls.env cfg with sh := sh }) ls.trailer (directEnc 4 4 128 (-4) o u ++ [(b!"CF", .dict longCF)])
      ⟨4, 4, 16, o, u, -4, id, true⟩ := by
    rw [hls]
    exact directEnc_describes _ rfl (by decide) (by decide) (by decide) (by decide) (by decide) (by decide) (by decide)
  obtain ⟨s', hs⟩ := secInit_run (ext := cfg.ext) hd password ls.sh ls.ps
  obtain ⟨b, hb, hiff⟩ := verifyKey_ok cfg.ext ⟨4, 4, 16, o, u, -4, id, true⟩ password (shAfter cfg.ext ⟨4, 4, 16, o, u, -4, id, true⟩ password ls.sh)
    (show (2:Int) ≤ 4 by decide) (fun _ => by show 16 ≤ u.length; omega) rfl rfl rfl rfl
  rw [hb, hiff.2 hup, bind_of_ok (x := St.ofRes (.ok _)) rfl, if_neg (by decide), bind_of_panic (longCF_panic _ _ _ _ _ _ rfl rfl)] at hs
  exact ⟨ls, "slice bounds out of range", by rw [setPassword, hs]; rfl⟩

theorem loadCryptFilter_total {ext : Ext} {rs : Resolver} (hrs : ∀ n, Total (rs n)) (password : Bytes) {sh : SecHandler} (hsh : 5 ≤ sh.length ∧ sh.length ≤ 16)
    {k : Bytes} {e : Obj} (he : ∀ cfd, e = .dict cfd → ∀ t m t', Dict.getName rs cfd b!"CFM" t = .ok (some m, t') → ∀ s l s', Dict.getInt rs cfd b!"Length" s = .ok (some l, s') → 0 ≤ l ∧ l ≤ 16) :
    Total (loadCryptFilter ext rs password sh k e) ∧ Ret (fun sh' : SecHandler => sh'.length = sh.length) (loadCryptFilter ext rs password sh k e) := by
  cases e with
  | dict cfd =>
    refine ⟨?_, ?_⟩
    · rw [loadCryptFilter]
      refine (Dict.getName_total hrs _ _).bind fun s1 m s2 hm => ?_
      cases m with
      | none => exact Total.pure _
      | some method =>
        refine (Dict.getInt_total hrs _ _).bind fun s l t hl => ?_
        have hlen : 0 ≤ l.getD sh.length ∧ l.getD sh.length ≤ 16 := by
          cases l with
          | none => simp only [Option.getD_none]; omega
          | some l => exact he cfd rfl _ _ _ hm _ _ _ hl
        dsimp only
        split
        · exact Total.pure _
        · split
          · exact (Total.ofRes (computeKey_total ext sh password hlen.1 hlen.2)).bind' fun _ => Total.pure _
          · split
            · exact (Total.ofRes (computeKey_total ext sh password hlen.1 hlen.2)).bind' fun _ => Total.pure _
            · exact Total.pure _
    · rw [loadCryptFilter]
      repeat' first
        | exact Ret.pure rfl
        | refine Ret.bind' fun _ => ?_
        | split
        | dsimp only
  | _ => exact ⟨Total.pure _, Ret.pure rfl⟩

theorem loadCryptFilters_total {ext : Ext} {rs : SecHandler → Resolver} (hrs : ∀ sh n, Total (rs sh n)) (password : Bytes) : ∀ (cf : List (Bytes × Obj)) (sh : SecHandler),
    (5 ≤ sh.length ∧ sh.length ≤ 16) →
    (∀ k cfd, (k, .dict cfd) ∈ cf → ∀ sh t m t', Dict.getName (rs sh) cfd b!"CFM" t = .ok (some m, t') → ∀ s l s', Dict.getInt (rs sh) cfd b!"Length" s = .ok (some l, s') → 0 ≤ l ∧ l ≤ 16) →
    Total (loadCryptFilters ext rs password cf sh)
  | [], sh, _, _ => Total.pure _
  | (k, e) :: t, sh, hsh, he => by
    rw [loadCryptFilters]
    have h1 := loadCryptFilter_total (ext := ext) (hrs sh) password hsh (k := k) (e := e) (fun cfd hc => he k cfd (by rw [hc]; exact List.mem_cons_self) sh)
    refine h1.1.bind fun s a t' ha => ?_
    have hl := h1.2 _ _ _ ha
    exact loadCryptFilters_total hrs password t a (by rw [hl]; exact hsh) fun k cfd hm => he k cfd (List.mem_cons_of_mem _ hm)

theorem namedFilter_total {rs : Resolver} (hrs : ∀ n, Total (rs n)) (enc : Dict) (sh : SecHandler) (k : Bytes) (d : CryptFilter) :
    Total (namedFilter rs enc sh k d) := by
  rw [namedFilter]
  refine (Dict.getName_total hrs _ _).bind' fun m => ?_
  cases m with
  | none => exact Total.pure _
  | some n => exact Total.pure _

/-- **C40, partial** `SetPassword` returns whenever following references does, the U entry (of the standard handler) is longer
than eight bytes, and the lengths of crypt filters with a method are between 0 and 16. -/
theorem C40_partial (cfg : Cfg) (rs : Env → Resolver) (password : Bytes) (ls : LS) (hrs : ∀ env n, Total (rs env n))
    (hU : ∀ env env' s s' enc, Dict.getDict (rs env) ls.trailer b!"Encrypt" s = .ok (some enc, s') →
      ∀ p p', Dict.getName (rs env) enc b!"Filter" p = .ok (some b!"Standard", p') → ∀ t u t', Dict.getString (rs env') enc b!"U" t = .ok (some u, t') → 8 < u.length)
    (hCF : ∀ env env' s s' enc, Dict.getDict (rs env) ls.trailer b!"Encrypt" s = .ok (some enc, s') →
      ∀ t cf t', Dict.getDict (rs env') enc b!"CF" t = .ok (some cf, t') →
      ∀ k cfd, (k, .dict cfd) ∈ cf → ∀ env'' w m w', Dict.getName (rs env'') cfd b!"CFM" w = .ok (some m, w') → ∀ v l v', Dict.getInt (rs env'') cfd b!"Length" v = .ok (some l, v') → 0 ≤ l ∧ l ≤ 16) :
    ∃ e ls', setPassword cfg rs ord password ls = .ok (e, ls') := by
  have key : Total (secInit cfg.ext (fun sh => rs { ls.env cfg with sh := sh }) ord password ls.trailer ls.sh) := by
    rw [secInit]
    have tot : ∀ sh n, Total ((fun sh => rs { ls.env cfg with sh := sh }) sh n) := fun sh n => hrs _ n
    refine (Dict.getDict_total (tot _) _ _).bind fun s enc s' hs => ?_
    cases enc with
    | none => exact Total.pure _
    | some enc =>
    dsimp only
    refine (Dict.getName_total (tot _) _ _).bind fun p filter p' hp => ?_
    split
    · exact Total.pure _
    rename_i hfil
    have hfil : filter = some b!"Standard" := by
      cases filter with
      | none => exact absurd (show ([] : Bytes) ≠ b!"Standard" by decide) hfil
      | some x => exact congrArg some (Classical.not_not.1 hfil)
    subst hfil
    refine (Dict.getInt_total (tot _) _ _).bind' fun v => ?_
    split
    · exact Total.pure _
    refine (Dict.getInt_total (tot _) _ _).bind' fun r => ?_
    split
    · exact Total.pure _
    refine Total.bind' ?_ fun len => ?_
    · rw [lengthEntry]
      split
      · exact Total.pure _
      · exact Dict.getInt_total (tot _) _ _
    refine (Dict.getString_total (tot _) _ _).bind' fun o => ?_
    cases o with
    | none => exact Total.pure _
    | some o =>
    dsimp only
    refine (Dict.getString_total (tot _) _ _).bind fun t u t' ht => ?_
    cases u with
    | none => exact Total.pure _
    | some u =>
    have hu8 := hU _ _ _ _ _ hs _ _ hp _ _ _ ht
    clear ht
    dsimp only
    refine (Dict.getInt_total (tot _) _ _).bind' fun p => ?_
    cases p with
    | none => exact Total.pure _
    | some p =>
    dsimp only
    refine (Dict.getBool_total (tot _) _ _).bind' fun em => ?_
    refine (Dict.getArray_total (tot _) _ _).bind' fun ids => ?_
    cases ids with
    | none => exact Total.pure _
    | some ids =>
    dsimp only
    refine (Arr.getString_total (tot _) _ _).bind' fun id => ?_
    cases id with
    | none => exact Total.pure _
    | some id =>
    dsimp only
    have hkl := keyLength_bounds (v.getD 0) len
    refine (Total.ofRes (computeKey_total _ _ _ (by omega) (by omega))).bind' fun kk => ?_
    refine (Total.ofRes ?_).bind' fun good => ?_
    · rw [verifyKey]
      split
      · exact ⟨_, rfl⟩
      · split
        · rw [firstSixteen, if_neg (by simp only; omega)]; exact ⟨_, rfl⟩
        · exact ⟨_, rfl⟩
    split
    · exact Total.pure _
    refine Total.bind' ?_ fun _ => Total.pure _
    rw [setFilters]
    dsimp only
    split
    · refine (Dict.getDict_total (tot _) _ _).bind fun t cf t' ht => ?_
      refine (loadCryptFilters_total (fun _ => tot _) password _ _ hkl ?_).bind' fun sh => ?_
      · intro k cfd hm _ w m w' hw v l v' hl
        cases cf with
        | none => cases (visited ord _).mem_iff.1 hm
        | some cf => exact hCF _ _ _ _ _ hs _ _ _ ht k cfd ((visited ord _).mem_iff.1 hm) _ _ _ _ hw _ _ _ hl
      refine (namedFilter_total (tot _) _ _ _ _).bind' fun _ => ?_
      refine (namedFilter_total (tot _) _ _ _ _).bind' fun _ => ?_
      refine (namedFilter_total (tot _) _ _ _ _).bind' fun _ => ?_
      exact Total.pure _
    · exact Total.pure _
  obtain ⟨⟨⟨e, sh'⟩, s'⟩, h⟩ := key ls.ps
  exact ⟨e, _, by rw [setPassword, h]; rfl⟩

/-- No encryption dictionary: the hypotheses hold. -/
example : ∃ e ls', setPassword ⟨[], Concrete.ext, some false⟩ (fun _ n => pure (newIndObj n)) ord b!"x" LS.init = .ok (e, ls') :=
  C40_partial _ _ _ _ (fun _ _ => Total.pure _) (by intro _ _ _ _ _ h; cases h) (by intro _ _ _ _ _ h; cases h)

/-! ### C41 -/

theorem computeKey_take (ext : Ext) {p q : Bytes} (h : p.take 32 = q.take 32) (sh : SecHandler) (n : Int) :
    computeKey ext sh p n = computeKey ext sh q n := by
  rw [computeKey, computeKey, padPassword_take h]

theorem loadCryptFilter_take (ext : Ext) {p q : Bytes} (h : p.take 32 = q.take 32) (rs : Resolver) (sh : SecHandler) (k : Bytes) (e : Obj) :
    loadCryptFilter ext rs p sh k e = loadCryptFilter ext rs q sh k e := by
  cases e with
  | dict d => rw [loadCryptFilter, loadCryptFilter]; simp only [computeKey_take ext h]
  | _ => rfl

theorem loadCryptFilters_take (ext : Ext) {p q : Bytes} (h : p.take 32 = q.take 32) (rs : SecHandler → Resolver) : ∀ (cf : List (Bytes × Obj)) (sh : SecHandler),
    loadCryptFilters ext rs p cf sh = loadCryptFilters ext rs q cf sh
  | [], _ => rfl
  | (k, e) :: t, sh => by
    rw [loadCryptFilters, loadCryptFilters, loadCryptFilter_take ext h]
    congr 1
    funext a
    exact loadCryptFilters_take ext h rs t a

theorem secInit_take (ext : Ext) {p q : Bytes} (h : p.take 32 = q.take 32) (rs : SecHandler → Resolver) (trailer : Dict) (sh : SecHandler) :
    secInit ext rs ord p trailer sh = secInit ext rs ord q trailer sh := by
  have hsf : ∀ enc sh, setFilters ext rs ord p enc sh = setFilters ext rs ord q enc sh := by
    intro enc sh
    rw [setFilters, setFilters]
    simp only [loadCryptFilters_take ext h]
  rw [secInit, secInit]
  simp only [computeKey_take ext h, hsf]

/-- **C41** Passwords that agree on their first 32 bytes give the same result and leave the same
parser, in `SetPassword` and in `Load`. -/
theorem C41_first_32 (cfg : Cfg) {p q : Bytes} (h : p.take 32 = q.take 32) :
    (∀ rs ord ls, setPassword cfg rs ord p ls = setPassword cfg rs ord q ls) ∧ ∀ ord f fx ls, load cfg ord f fx p ls = load cfg ord f fx q ls := by
  have h1 : ∀ rs ord, setPassword cfg rs ord p = setPassword cfg rs ord q := by
    intro rs ord
    funext ls
    rw [setPassword, setPassword, secInit_take cfg.ext h]
  refine ⟨fun rs ord ls => by rw [h1], ?_⟩
  intro ord f fx ls
  rw [load, load, loadF, loadF]
  simp only [h1]

/-- Two different such passwords. -/
example : (List.replicate 32 65 ++ b!"x" : Bytes).take 32 = (List.replicate 32 65 ++ b!"yz" : Bytes).take 32 ∧
    (List.replicate 32 65 ++ b!"x" : Bytes) ≠ List.replicate 32 65 ++ b!"yz" := by decide

end Pdf.Props
