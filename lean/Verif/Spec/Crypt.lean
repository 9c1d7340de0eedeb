import Verif.Model.Object
import Verif.Model.Getters
/-!
The standard security handler (ISO 32000-1, 7.6): keys, password check, encryption of strings and
streams. MD5 and the block cipher are parameters.
-/

namespace Pdf.Spec

mutual
/-- `g` applied to every string in an object, at any depth. -/
def mapStr (g : Bytes → Bytes) : Obj → Obj
  | .str b => .str (g b)
  | .arr l => .arr (mapStrL g l)
  | .dict l => .dict (mapStrD g l)
  | .kw b => .kw b
  | .num x => .num x
  | .name b => .name b
  | .ref n m => .ref n m
def mapStrL (g : Bytes → Bytes) : List Obj → List Obj
  | [] => []
  | o :: t => mapStr g o :: mapStrL g t
def mapStrD (g : Bytes → Bytes) : List (Bytes × Obj) → List (Bytes × Obj)
  | [] => []
  | (k, o) :: t => (k, mapStr g o) :: mapStrD g t
end

/-- The low `k` bytes of an integer, least significant first. -/
def lowBytes (k : Nat) (n : Int) : Bytes := (List.range k).map fun i => UInt8.ofNat (n / 256 ^ i % 256).toNat

/-- Algorithm 1: the key for object `n`, generation `g`. -/
def objectKey (md5 : Bytes → Bytes) (key : Bytes) (n g : Int) (aes : Bool) : Bytes :=
  (md5 (key ++ lowBytes 3 n ++ lowBytes 2 g ++ (if aes then b!"sAlT" else []))).take (min 16 (key.length + 5))

/-- The padding string of Algorithm 2. -/
def padString : Bytes :=
  [0x28, 0xBF, 0x4E, 0x5E, 0x4E, 0x75, 0x8A, 0x41, 0x64, 0x00, 0x4E, 0x56, 0xFF, 0xFA, 0x01, 0x08,
   0x2E, 0x2E, 0x00, 0xB6, 0xD0, 0x68, 0x3E, 0x80, 0x2F, 0x0C, 0xA9, 0xFE, 0x64, 0x53, 0x69, 0x7A]

/-- `f` applied `n` times. -/
def times {α : Type} (f : α → α) : Nat → α → α
  | 0, a => a
  | n + 1, a => times f n (f a)

/-- What the encryption dictionary and the file identifier say. -/
structure StdDict where
  v : Int
  r : Int
  /-- key length in bytes -/
  n : Nat
  o : Bytes
  u : Bytes
  p : Int
  id : Bytes
  encryptMetadata : Bool

/-- Algorithm 2: the encryption key. -/
def stdKey (md5 : Bytes → Bytes) (d : StdDict) (password : Bytes) : Bytes :=
  let h := md5 ((password ++ padString).take 32 ++ d.o ++ lowBytes 4 d.p ++ d.id ++
    (if 4 ≤ d.r ∧ d.encryptMetadata = false then [255, 255, 255, 255] else []))
  if 3 ≤ d.r then times (fun k => (md5 k).take d.n) 50 (h.take d.n) else h.take d.n

/-- Algorithm 5, steps d and e: the key with every byte xored with the round number. -/
def roundKey (key : Bytes) (i : Nat) : Bytes := key.map fun b => b ^^^ UInt8.ofNat i

/-- Algorithms 4 and 5: the significant bytes of the U entry (32 for revision 2, 16 otherwise). -/
def stdU (md5 : Bytes → Bytes) (rc4 : Bytes → Bytes → Bytes) (d : StdDict) (password : Bytes) : Bytes :=
  let key := stdKey md5 d password
  if d.r = 2 then rc4 key padString
  else (List.range 20).foldl (fun x i => rc4 (roundKey key i) x) (md5 (padString ++ d.id))

/-- Algorithm 6: is this the user password? -/
def UserPassword (md5 : Bytes → Bytes) (rc4 : Bytes → Bytes → Bytes) (d : StdDict) (password : Bytes) : Prop :=
  if d.r = 2 then d.u = stdU md5 rc4 d password else d.u.take 16 = stdU md5 rc4 d password

/-- Algorithm 3, steps a to d: the key made from the owner password. -/
def ownerKey (md5 : Bytes → Bytes) (d : StdDict) (owner : Bytes) : Bytes :=
  (times md5 (if 3 ≤ d.r then 50 else 0) (md5 ((owner ++ padString).take 32))).take d.n

/-- Algorithm 3: the O entry. -/
def stdO (md5 : Bytes → Bytes) (rc4 : Bytes → Bytes → Bytes) (d : StdDict) (owner user : Bytes) : Bytes :=
  let key := ownerKey md5 d owner
  (List.range (if 3 ≤ d.r then 20 else 1)).foldl (fun x i => rc4 (roundKey key i) x) ((user ++ padString).take 32)

/-- The document is protected with this owner password and this user password. -/
structure Protected (md5 : Bytes → Bytes) (rc4 : Bytes → Bytes → Bytes) (d : StdDict) (owner user : Bytes) : Prop where
  o : d.o = stdO md5 rc4 d owner user
  u : UserPassword md5 rc4 d user

/-- Padding of RFC 2898 to whole 16-byte blocks. -/
def pad16 (p : Bytes) : Bytes := p ++ List.replicate (16 - p.length % 16) (UInt8.ofNat (16 - p.length % 16))

/-- Cipher block chaining with block encryption `enc`; `k` blocks. -/
def cbcEnc (enc : Bytes → Bytes) : Nat → Bytes → Bytes → Bytes
  | 0, _, _ => []
  | k + 1, iv, p =>
    let c := enc (List.zipWith (· ^^^ ·) (p.take 16) iv)
    c ++ cbcEnc enc k c (p.drop 16)

/-- AESV2: the initialisation vector, then the chained encryption of the padded plaintext. -/
def aesEncrypt (enc : Bytes → Bytes) (iv p : Bytes) : Bytes := iv ++ cbcEnc enc ((pad16 p).length / 16) iv (pad16 p)

/-- What the getters report of a trailer and its encryption dictionary, at any time. -/
structure Describes {σ : Type} (rs : σ → Resolver) (trailer enc : Dict) (d : StdDict) : Prop where
  encrypt : ∀ h s, ∃ s', Dict.getDict (rs h) trailer b!"Encrypt" s = .ok (some enc, s')
  filter : ∀ h s, ∃ s', Dict.getName (rs h) enc b!"Filter" s = .ok (some b!"Standard", s')
  v : ∀ h s, ∃ s', Dict.getInt (rs h) enc b!"V" s = .ok (some d.v, s')
  r : ∀ h s, ∃ s', Dict.getInt (rs h) enc b!"R" s = .ok (some d.r, s')
  v_ok : d.v = 1 ∨ d.v = 2 ∨ d.v = 4
  r_ok : 2 ≤ d.r ∧ d.r ≤ 4
  /-- 40 bits for V 1, otherwise /Length bits (by default 40), at least 5 and at most 16 bytes -/
  length : ∃ bits : Option Int, (∀ h s, ∃ s', Dict.getInt (rs h) enc b!"Length" s = .ok (bits, s')) ∧
    (d.n : Int) = if d.v = 1 then 5 else max 5 (min 16 (bits.getD 40 / 8))
  o : ∀ h s, ∃ s', Dict.getString (rs h) enc b!"O" s = .ok (some d.o, s')
  u : ∀ h s, ∃ s', Dict.getString (rs h) enc b!"U" s = .ok (some d.u, s')
  p : ∀ h s, ∃ s', Dict.getInt (rs h) enc b!"P" s = .ok (some d.p, s')
  em : ∃ b : Option Bool, (∀ h s, ∃ s', Dict.getBool (rs h) enc b!"EncryptMetadata" s = .ok (b, s')) ∧
    d.encryptMetadata = b.getD true
  id : ∃ ids, (∀ h s, ∃ s', Dict.getArray (rs h) trailer b!"ID" s = .ok (some ids, s')) ∧
    (∀ h s, ∃ s', Arr.getString (rs h) ids 0 s = .ok (some d.id, s'))

end Pdf.Spec
