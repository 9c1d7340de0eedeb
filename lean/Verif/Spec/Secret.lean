import Verif.Spec.Document
/-!
Encrypted documents (ISO 32000-1, 7.6): which objects are encrypted, and with what. RC4 and MD5 are parameters.
-/

namespace Pdf.Spec
open Pdf

/-- The keys for strings, streams and embedded files; without a key nothing is encrypted. -/
structure Secrecy where
  strings : Option Bytes
  streams : Option Bytes
  files : Option Bytes

/-- A string or stream of object `n`, generation `g`, encrypted. -/
def hide (md5 : Bytes → Bytes) (rc4 : Bytes → Bytes → Bytes) (key : Option Bytes) (n g : Int) (b : Bytes) : Bytes :=
  match key with
  | none => b
  | some k => rc4 (objectKey md5 k n g false) b

/-- The key for a stream with this dictionary. -/
def Secrecy.streamKey (c : Secrecy) (o : Obj) : Option Bytes :=
  if Assoc.get? (entriesOf o) b!"Type" = some (.name b!"EmbeddedFile") then c.files else c.streams

/-- An object with its strings and its stream encrypted. -/
def sealed (md5 : Bytes → Bytes) (rc4 : Bytes → Bytes → Bytes) (c : Secrecy) (o : IndObj) : IndObj :=
  ⟨o.number, o.generation, mapStr (hide md5 rc4 c.strings o.number o.generation) o.value, o.stream.map (hide md5 rc4 (c.streamKey o.value) o.number o.generation)⟩

/-- What is in the file, and what it means. Cross reference streams and the object `skip` (the encryption dictionary) are
not encrypted; all other objects are, after their filters. -/
inductive Secret (md5 : Bytes → Bytes) (rc4 : Bytes → Bytes → Bytes) (cd : Codecs) (c : Secrecy) (skip : Option Int) : IndObj → IndObj → Prop
  | plain {a o} : ¬ NotXref o ∨ skip = some o.number → Decoded cd a o → Secret md5 rc4 cd c skip a o
  | hidden {m o} : NotXref o → skip ≠ some o.number → Decoded cd m o → Secret md5 rc4 cd c skip (sealed md5 rc4 c m) o

/-- Texts of an encrypted document. -/
def Reading.secret (md5 : Bytes → Bytes) (rc4 : Bytes → Bytes → Bytes) (cd : Codecs) (c : Secrecy) (skip : Option Int) : Reading where
  cd := cd
  rel := Secret md5 rc4 cd c skip
  same := by
    intro a o h
    cases h with
    | plain _ h => exact ⟨h.same.1, h.same.2.1, .inl h.same.2.2⟩
    | hidden _ _ h => exact ⟨h.same.1, h.same.2.1, .inr ⟨_, by rw [← h.same.2.2]; rfl⟩⟩

/-- Where the encryption dictionary is: in the trailer, or the object with a number. -/
inductive EncryptAt (us : List Update) (enc : Dict) : Option Int → Prop
  | direct : trailerFor us b!"Encrypt" = some (.dict enc) → EncryptAt us enc none
  | indirect {m g p} : trailerFor us b!"Encrypt" = some (.ref m g) → meant us m = some p → p.obj.value = .dict enc → EncryptAt us enc (some m)

/-- A number without a fraction, or with one that is ignored. -/
def IntEntry (d : Dict) (k : Bytes) (n : Int) : Prop := ∃ x : F64, d.get? k = some (.num x) ∧ x.toInt = n

/-- The encryption dictionary and the file identifier say this; no entry is a reference. -/
structure StdEntries (us : List Update) (enc : Dict) (d : StdDict) : Prop where
  filter : enc.get? b!"Filter" = some (.name b!"Standard")
  v : IntEntry enc b!"V" d.v
  r : IntEntry enc b!"R" d.r
  v_ok : d.v = 1 ∨ d.v = 2 ∨ d.v = 4
  r_ok : 2 ≤ d.r ∧ d.r ≤ 4
  /-- 40 bits for V 1, otherwise /Length bits (by default 40), at least 5 and at most 16 bytes -/
  length : (enc.get? b!"Length" = none ∧ d.n = 5) ∨ ∃ bits : Int, IntEntry enc b!"Length" bits ∧ (d.n : Int) = if d.v = 1 then 5 else max 5 (min 16 (bits / 8))
  o : enc.get? b!"O" = some (.str d.o)
  u : enc.get? b!"U" = some (.str d.u)
  u_long : 3 ≤ d.r → 16 ≤ d.u.length
  p : IntEntry enc b!"P" d.p
  em : (enc.get? b!"EncryptMetadata" = none ∧ d.encryptMetadata = true) ∨ enc.get? b!"EncryptMetadata" = some (.kw (if d.encryptMetadata then b!"true" else b!"false"))
  id : ∃ more, trailerFor us b!"ID" = some (.arr (.str d.id :: more))

/-- The key of the crypt filter with this name, for a user password; AES is not covered. -/
inductive NamedKey (md5 : Bytes → Bytes) (d : StdDict) (password : Bytes) (cf : Dict) (name : Bytes) : Option Bytes → Prop
  | identity : name = b!"Identity" → cf.get? name = none → NamedKey md5 d password cf name none
  | nothing {cfd : Dict} : cf.get? name = some (.dict cfd) → cfd.get? b!"CFM" = some (.name b!"None") → NamedKey md5 d password cf name none
  | rc4 {cfd : Dict} {n : Nat} : cf.get? name = some (.dict cfd) → cfd.get? b!"CFM" = some (.name b!"V2") → (cfd.get? b!"Length" = none ∧ n = d.n ∨ IntEntry cfd b!"Length" n) → n ≤ 16 →
      NamedKey md5 d password cf name (some (stdKey md5 { d with n := n } password))

/-- An entry of /CF: lengths are in bytes. -/
def CFEntry (o : Obj) : Prop := ∃ (cfd : Dict) (m : Bytes), o = .dict cfd ∧ cfd.get? b!"CFM" = some (.name m) ∧ (cfd.get? b!"Length" = none ∨ ∃ n : Nat, n ≤ 16 ∧ IntEntry cfd b!"Length" n)

/-- The keys of a document for a user password. Embedded files have the key of the document. -/
inductive Keys (md5 : Bytes → Bytes) (enc : Dict) (d : StdDict) (password : Bytes) : Secrecy → Prop
  | all : d.r ≠ 4 → Keys md5 enc d password ⟨some (stdKey md5 d password), some (stdKey md5 d password), some (stdKey md5 d password)⟩
  | named {cf : Dict} {stm str : Bytes} {k1 k2 : Option Bytes} : d.r = 4 → enc.get? b!"CF" = some (.dict cf) → (cf.map (·.1)).Nodup → (∀ x ∈ cf, CFEntry x.2) →
      enc.get? b!"StmF" = some (.name stm) → enc.get? b!"StrF" = some (.name str) → enc.get? b!"EEF" = none → NamedKey md5 d password cf str k1 → NamedKey md5 d password cf stm k2 →
      Keys md5 enc d password ⟨k1, k2, some (stdKey md5 d password)⟩

/-- The entry is not a reference. -/
def InPlace (d : Dict) (k : Bytes) : Prop := ∀ n g, d.get? k ≠ some (.ref n g)

/-- The encryption dictionary asks for something other than the standard handler, versions 1, 2, 4 and revisions 2 to 4. -/
inductive Unsupported (enc : Dict) : Prop
  | filter : InPlace enc b!"Filter" → enc.get? b!"Filter" ≠ some (.name b!"Standard") → Unsupported enc
  | version : enc.get? b!"Filter" = some (.name b!"Standard") → InPlace enc b!"V" → (∀ n, IntEntry enc b!"V" n → n ≠ 1 ∧ n ≠ 2 ∧ n ≠ 4) → Unsupported enc
  | revision {v} : enc.get? b!"Filter" = some (.name b!"Standard") → IntEntry enc b!"V" v → (v = 1 ∨ v = 2 ∨ v = 4) → InPlace enc b!"R" →
      (∀ n, IntEntry enc b!"R" n → n < 2 ∨ 4 < n) → Unsupported enc

/-- Something needed to check a password is missing: the entries /O, /U and /P, or the identifier of the file. -/
structure Incomplete (us : List Update) (enc : Dict) : Prop where
  filter : enc.get? b!"Filter" = some (.name b!"Standard")
  v : ∃ v, IntEntry enc b!"V" v ∧ (v = 1 ∨ v = 2 ∨ v = 4)
  r : ∃ r, IntEntry enc b!"R" r ∧ 2 ≤ r ∧ r ≤ 4
  direct : InPlace enc b!"Length" ∧ InPlace enc b!"O" ∧ InPlace enc b!"U" ∧ InPlace enc b!"P" ∧ InPlace enc b!"EncryptMetadata"
  missing : (∀ x, enc.get? b!"O" ≠ some (.str x)) ∨ (∀ x, enc.get? b!"U" ≠ some (.str x)) ∨ (∀ n, ¬ IntEntry enc b!"P" n) ∨
    ∃ v, trailerFor us b!"ID" = some v ∧ (∀ n g, v ≠ .ref n g) ∧ (∀ n g more, v ≠ .arr (.ref n g :: more)) ∧ ∀ x more, v ≠ .arr (.str x :: more)

/-- Objects with this number are not encrypted. -/
def Reading.Open (rd : Reading) (skip : Option Int) : Prop := ∀ a o, skip = some o.number → rd.rel a o → Decoded rd.cd a o

/-- Sections that are streams say so. In a linearized document the first section does not list objects of the second part. -/
structure Typed (us : List Update) : Prop where
  streams : ∀ u ∈ us, ∀ subs w0 w1 w2 here x, u.sect = .stream subs w0 w1 w2 here x → ¬ NotXref x.obj
  apart : linear us = true → ∀ u v rest, us = u :: v :: rest → ∀ p ∈ v.parts, ∀ e ∈ u.sect.entries, e.1 ≠ p.obj.number

end Pdf.Spec
