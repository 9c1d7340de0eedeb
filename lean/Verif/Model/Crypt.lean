import Verif.Model.Getters
import Verif.Model.Filters
/-!
encryption.go. RC4 and CBC chaining are concrete; MD5 and the AES block function are parameters.
-/

namespace Pdf

/-- Everything outside the repository that the decoding and decryption code calls. -/
structure Ext extends Codecs where
  /-- `md5.New(); Write(data); Sum(nil)` -/
  md5 : Bytes → Bytes
  /-- `md5.Size` -/
  md5_length : ∀ d, (md5 d).length = 16
  /-- AES-128 decryption of one block: key, block -/
  aesBlock : Bytes → Bytes → Bytes
  /-- `aes.BlockSize` -/
  aesBlock_length : ∀ k b, (aesBlock k b).length = 16

/-- swap of two cells of the RC4 state -/
def rc4Swap (st : Bytes) (i j : Nat) : Bytes := (st.set i (st.getD j 0)).set j (st.getD i 0)

/-- crypto/rc4 `NewCipher`: key schedule; `n` steps remain, `i = 256 - n` -/
def rc4Ksa (key : Bytes) : Nat → UInt8 → Bytes → Bytes
  | 0, _, st => st
  | n + 1, j, st =>
    let i := 255 - n
    let j := j + st.getD i 0 + key.getD (i % key.length) 0
    rc4Ksa key n j (rc4Swap st i j.toNat)

/-- crypto/rc4 initial state: the identity permutation, then the key schedule -/
def rc4Init (key : Bytes) : Bytes := rc4Ksa key 256 0 ((List.range 256).map UInt8.ofNat)

/-- crypto/rc4 `XORKeyStream`: the next `n` bytes of key stream -/
def rc4Stream : Nat → UInt8 → UInt8 → Bytes → Bytes
  | 0, _, _, _ => []
  | n + 1, i, j, st =>
    let i := i + 1
    let j := j + st.getD i.toNat 0
    let st := rc4Swap st i.toNat j.toNat
    st.getD (st.getD i.toNat 0 + st.getD j.toNat 0).toNat 0 :: rc4Stream n i j st

/-- crypto/rc4: `NewCipher(key)` then `XORKeyStream(data, data)`. `NewCipher` refuses empty keys and keys over 256 bytes; keys here have 5 to 16 bytes. -/
def rc4 (key data : Bytes) : Bytes :=
  List.zipWith (· ^^^ ·) data (rc4Stream data.length 0 0 (rc4Init key))

/-- crypto/cipher CBC decryption of whole blocks (`k` of them): each block is decrypted and xored
with the ciphertext block before it. -/
def cbcDec (block : Bytes → Bytes) : Nat → Bytes → Bytes → Bytes
  | 0, _, _ => []
  | k + 1, iv, data =>
    List.zipWith (· ^^^ ·) (block (data.take 16)) iv ++ cbcDec block k (data.take 16) (data.drop 16)

/-- encryption.go:14-27, 34-36, 100-102 the `CryptFilter` implementations -/
inductive CryptFilter where
  | none
  | rc4 (key : Bytes)
  | aes (key : Bytes)
deriving DecidableEq, Repr

/-- encryption.go:18-21, 29, 72-74, 135-137: the `Decryptor` implementations -/
inductive Decryptor where
  | none
  | rc4 (key : Bytes)
  | aes (key : Bytes)
deriving DecidableEq, Repr

/-- `binary.LittleEndian.PutUint32(b, uint32(n))` (encryption.go:45, 50, 111, 116, 230) -/
def le32 (n : Int) : Bytes :=
  let v := (n % 4294967296).toNat
  [UInt8.ofNat v, UInt8.ofNat (v / 256), UInt8.ofNat (v / 65536), UInt8.ofNat (v / 16777216)]

/-- encryption.go:25-27, 38-70, 104-133 `NewDecryptor`: the key for object `n`, generation `g` -/
def newDecryptor (ext : Ext) (cf : CryptFilter) (n g : Int) : Decryptor :=
  match cf with
  | .none => .none
  | .rc4 key =>
    .rc4 ((ext.md5 (key ++ (le32 n).take 3 ++ (le32 g).take 2)).take (min 16 (key.length + 5)))
  | .aes key =>
    .aes ((ext.md5 (key ++ (le32 n).take 3 ++ (le32 g).take 2 ++ b!"sAlT")).take
      (min 16 (key.length + 5)))

/-- logger.go:10-19 `Debug`: dereferences the global `Verbose`; output to stderr is not modelled -/
def debug (verbose : Option Bool) : Res Unit :=
  match verbose with
  | none => .panic "nil pointer dereference"
  | some _ => .ok ()

/-- encryption.go:31, 76-97, 139-142 `Decrypt` (in place; here the new contents). For AES, a bad key
length or data that is not whole blocks panics inside and is recovered, leaving the data as is; the
recovery calls `Debug`. -/
def decrypt (ext : Ext) (verbose : Option Bool) (d : Decryptor) (data : Bytes) : Res Bytes :=
  match d with
  | .none => .ok data
  | .rc4 key => .ok (rc4 key data)
  | .aes key =>
    if data.length ≤ 16 then .ok data
    else if key.length ≠ 16 ∨ (data.length - 16) % 16 ≠ 0 then debug verbose >>= fun _ => .ok data
    else .ok (data.take 16 ++
      cbcDec (ext.aesBlock key) ((data.length - 16) / 16) (data.take 16) (data.drop 16))

/-- encryption.go:11 `padding_string` -/
def paddingString : Bytes :=
  [0x28, 0xBF, 0x4E, 0x5E, 0x4E, 0x75, 0x8A, 0x41, 0x64, 0x00, 0x4E, 0x56, 0xFF, 0xFA, 0x01, 0x08,
   0x2E, 0x2E, 0x00, 0xB6, 0xD0, 0x68, 0x3E, 0x80, 0x2F, 0x0C, 0xA9, 0xFE, 0x64, 0x53, 0x69, 0x7A]

/-- encryption.go:144-158 `SecurityHandler` -/
structure SecHandler where
  v : Int := 0
  length : Int := 0
  r : Int := 0
  o : Bytes := []
  u : Bytes := []
  p : Bytes := []
  encryptMetadata : Bool := false
  id : Bytes := []
  streamFilter : CryptFilter := .none
  stringFilter : CryptFilter := .none
  fileFilter : CryptFilter := .none
  cryptFilters : Assoc Bytes CryptFilter := []
  key : Bytes := []
deriving DecidableEq, Repr

/-- encryption.go:160-167 `NewSecurityHandler` -/
def newSecurityHandler : SecHandler := {}

/-- errors.go:9-11 -/
inductive EncErr where
  | error | passwordError | unsupported
deriving DecidableEq, Repr

/-- encryption.go:336-341: password padded or cut to 32 bytes -/
def padPassword (password : Bytes) : Bytes :=
  if password.length < 32 then password ++ paddingString.take (32 - password.length)
  else password.take 32

/-- `hash.Sum(nil)[:key_length]`: the slice has capacity 16 -/
def sliceTo (b : Bytes) (n : Int) : Res Bytes :=
  if n < 0 ∨ (b.length : Int) < n then .panic "slice bounds out of range" else .ok (b.take n.toNat)

/-- encryption.go:354-361: re-hash `n` times -/
def rehash (ext : Ext) (keyLength : Int) : Nat → Bytes → Res Bytes
  | 0, k => .ok k
  | n + 1, k => sliceTo (ext.md5 k) keyLength >>= rehash ext keyLength n

/-- encryption.go:335-364 `computeEncryptionKey` -/
def computeKey (ext : Ext) (sh : SecHandler) (password : Bytes) (keyLength : Int) : Res Bytes :=
  let extra := if sh.r ≥ 4 ∧ sh.encryptMetadata = false then [0xFF, 0xFF, 0xFF, 0xFF] else []
  sliceTo (ext.md5 (padPassword password ++ sh.o ++ sh.p ++ sh.id ++ extra)) keyLength >>= fun k =>
    if sh.r ≥ 3 then rehash ext keyLength 50 k else .ok k

/-- encryption.go:266-274: twenty rounds of RC4, the key xored with the round number -/
def userRounds (key : Bytes) : Nat → Nat → Bytes → Bytes
  | 0, _, u => u
  | n + 1, i, u => userRounds key n (i + 1) (rc4 (key.map (· ^^^ UInt8.ofNat i)) u)

/-- `sh.u[:16]` (encryption.go:277). `sh.u` is a `[]byte(string)` conversion: capacity is the length
rounded up to an allocation size class (8, 16, ...), the spare bytes are zero. -/
def firstSixteen (u : Bytes) : Res Bytes :=
  if u.length ≤ 8 then .panic "slice bounds out of range"
  else .ok ((u ++ List.replicate 16 0).take 16)

/-- encryption.go:251-280: does the key match the /U entry? -/
def verifyKey (ext : Ext) (sh : SecHandler) : Res Bool :=
  if sh.r = 2 then .ok (rc4 sh.key paddingString == sh.u)
  else if sh.r ≥ 3 then
    let u := userRounds sh.key 20 0 (ext.md5 (paddingString ++ sh.id))
    firstSixteen sh.u >>= fun u16 => .ok (u == u16)
  else .ok true

/-- encryption.go:292-311: one entry of /CF -/
def loadCryptFilter (ext : Ext) (rs : Resolver) (password : Bytes) (sh : SecHandler)
    (k : Bytes) (entry : Obj) : M SecHandler :=
  match entry with
  | .dict cfd => do
    match ← Dict.getName rs cfd b!"CFM" with
    | some method =>
      let length := (← Dict.getInt rs cfd b!"Length").getD sh.length
      if method = b!"None" then
        pure { sh with cryptFilters := sh.cryptFilters.set k .none }
      else if method = b!"V2" then
        let key ← St.ofRes (computeKey ext sh password length)
        pure { sh with cryptFilters := sh.cryptFilters.set k (.rc4 key) }
      else if method = b!"AESV2" then
        let key ← St.ofRes (computeKey ext sh password length)
        pure { sh with cryptFilters := sh.cryptFilters.set k (.aes key) }
      else pure sh
    | none => pure sh
  | _ => pure sh

/-- encryption.go:291-311: all entries of /CF -/
def loadCryptFilters (ext : Ext) (rs : SecHandler → Resolver) (password : Bytes) :
    List (Bytes × Obj) → SecHandler → M SecHandler
  | [], sh => pure sh
  | (k, e) :: t, sh => loadCryptFilter ext (rs sh) password sh k e >>= loadCryptFilters ext rs password t

/-- encryption.go:313-328: the filter named by an entry of the encryption dictionary, if any -/
def namedFilter (rs : Resolver) (encrypt : Dict) (sh : SecHandler) (key : Bytes)
    (default : CryptFilter) : M CryptFilter := do
  match ← Dict.getName rs encrypt key with
  | some name => pure ((sh.cryptFilters.get? name).getD default)
  | none => pure default

/-- encryption.go:282-331: filters, once the password is verified -/
def setFilters (ext : Ext) (rs : SecHandler → Resolver) (ord : Order) (password : Bytes) (encrypt : Dict)
    (sh : SecHandler) : M SecHandler := do
  let sh := { sh with
    streamFilter := .rc4 sh.key, stringFilter := .rc4 sh.key, fileFilter := .rc4 sh.key
    cryptFilters := [(b!"Identity", .none)] }
  if sh.r = 4 then
    let cf := (← Dict.getDict (rs sh) encrypt b!"CF").getD []
    let sh ← loadCryptFilters ext rs password (ord.visit cf) sh
    let stm ← namedFilter (rs sh) encrypt sh b!"StmF" sh.streamFilter
    let sh := { sh with streamFilter := stm }
    let str ← namedFilter (rs sh) encrypt sh b!"StrF" sh.stringFilter
    let sh := { sh with stringFilter := str }
    let eef ← namedFilter (rs sh) encrypt sh b!"EEF" sh.fileFilter
    pure { sh with fileFilter := eef }
  else pure sh

/-- encryption.go:196-210: key length in bytes from /V and /Length -/
def keyLength (v : Int) (length : Option Int) : Int :=
  let l := (if v = 1 then 40 else length.getD 40).tdiv 8
  if l < 5 then 5 else if l > 16 then 16 else l

/-- encryption.go:196-204: /Length, which is not looked at for V 1 -/
def lengthEntry (rs : Resolver) (encrypt : Dict) (v : Int) : M (Option Int) :=
  if v = 1 then pure none else Dict.getInt rs encrypt b!"Length"

/-- encryption.go:169-332 `SecurityHandler.Init`: the error (if any) and the handler afterwards.
References resolve with the handler as it is at that moment (`rs`). -/
def secInit (ext : Ext) (rs : SecHandler → Resolver) (ord : Order) (password : Bytes) (trailer : Dict)
    (sh : SecHandler) : M (Option EncErr × SecHandler) := do
  match ← Dict.getDict (rs sh) trailer b!"Encrypt" with
  | none => pure (some .error, sh)
  | some encrypt =>
  let filter := (← Dict.getName (rs sh) encrypt b!"Filter").getD []
  if filter ≠ b!"Standard" then pure (some .unsupported, sh) else
  let v := (← Dict.getInt (rs sh) encrypt b!"V").getD 0
  let sh := { sh with v := v }
  if v ≠ 1 ∧ v ≠ 2 ∧ v ≠ 4 then pure (some .unsupported, sh) else
  let r := (← Dict.getInt (rs sh) encrypt b!"R").getD 0
  let sh := { sh with r := r }
  if r < 2 ∨ r > 4 then pure (some .unsupported, sh) else
  let len ← lengthEntry (rs sh) encrypt v
  let sh := { sh with length := keyLength v len }
  match ← Dict.getString (rs sh) encrypt b!"O" with
  | none => pure (some .error, { sh with o := [] })
  | some o =>
  let sh := { sh with o := o }
  match ← Dict.getString (rs sh) encrypt b!"U" with
  | none => pure (some .error, { sh with u := [] })
  | some u =>
  let sh := { sh with u := u }
  match ← Dict.getInt (rs sh) encrypt b!"P" with
  | none => pure (some .error, sh)
  | some p =>
  let sh := { sh with p := le32 p }
  let em := (← Dict.getBool (rs sh) encrypt b!"EncryptMetadata").getD true
  let sh := { sh with encryptMetadata := em }
  match ← Dict.getArray (rs sh) trailer b!"ID" with
  | none => pure (some .error, sh)
  | some ids =>
  match ← Arr.getString (rs sh) ids 0 with
  | none => pure (some .error, { sh with id := [] })
  | some id =>
  let sh := { sh with id := id }
  let key ← St.ofRes (computeKey ext sh password sh.length)
  let sh := { sh with key := key }
  let good ← St.ofRes (verifyKey ext sh)
  if good = false then pure (some .passwordError, sh)
  else
    let sh ← setFilters ext rs ord password encrypt sh
    pure (none, sh)

end Pdf
