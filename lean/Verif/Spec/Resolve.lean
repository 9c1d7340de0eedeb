import Verif.Model.GetObject
/-!
Resolving references (ISO 32000-1, 7.3.10): what a dictionary or array entry stands for, chains of
references, and the references an object contains.
-/

namespace Pdf.Spec

/-- What an entry of a dictionary or array stands for: nothing if there is none, itself if it is not a
reference, and otherwise the value of the object it refers to. -/
inductive Stands (rs : Resolver) : Option Obj → PS → Option Obj → PS → Prop
  | absent {s} : Stands rs none s none s
  | direct {o s} : (∀ n g, o ≠ .ref n g) → Stands rs (some o) s (some o) s
  | ref {n g s i s'} : rs n s = .ok (i, s') → Stands rs (some (.ref n g)) s (some i.value) s'

/-- A getter that returns `a` exactly when the entry stands for a value `v` with `is v a`, and
reports failure exactly when it does not stand for such a value. -/
def Faithful {α : Type} (rs : Resolver) (entry : Option Obj) (get : M (Option α)) (is : Obj → α → Prop) : Prop :=
  ∀ s s', (∀ a, get s = .ok (some a, s') ↔ ∃ v, Stands rs entry s (some v) s' ∧ is v a) ∧
    (get s = .ok (none, s') ↔ ∃ v, Stands rs entry s v s' ∧ ∀ o a, v = some o → ¬ is o a)

/-- `a` is the value of a number converted to `int` (Go specification, Conversions between numeric types; where that
leaves the result open, what amd64 gives): the number without its fraction if that is an `int`, otherwise the least
`int`. -/
inductive AsInt : F64 → Int → Prop
  | nonneg {q : Rat} {a : Int} : 0 ≤ a → (a : Rat) ≤ q → q < (a : Rat) + 1 → a < 2 ^ 63 → AsInt (.fin q) a
  | neg {q : Rat} {a : Int} : a ≤ 0 → q ≤ (a : Rat) → (a : Rat) - 1 < q → -2 ^ 63 ≤ a → AsInt (.fin q) a
  | large {q : Rat} : 2 ^ 63 ≤ q → AsInt (.fin q) (-2 ^ 63)
  | small {q : Rat} : q ≤ -2 ^ 63 - 1 → AsInt (.fin q) (-2 ^ 63)
  | negZero : AsInt .negZero 0
  | infinite {b : Bool} : AsInt (.inf b) (-2 ^ 63)

/-- The element at an index: none outside the array. -/
def at? (a : List Obj) (i : Int) : Option Obj := if 0 ≤ i then a[i.toNat]? else none

/-- `GetObject(n)` returns `o`. -/
def Gets (env : Env) (n : Int) (s : PS) (o : IndObj) (s' : PS) : Prop := ∃ f, getObject env f n s = .ok (o, s')

/-- Resolving a reference to `n` gives `o`. -/
def Resolves (env : Env) (n : Int) (s : PS) (o : IndObj) (s' : PS) : Prop := ∃ f, resolver env f n s = .ok (o, s')

/-- Following references from `n` when the objects `seen` were already visited: a visited object gives
null, an object that is not a reference is the result, and a reference is followed. -/
inductive Chain (env : Env) : List Int → Int → PS → IndObj → PS → Prop
  | seen {v n s} : n ∈ v → Chain env v n s (newIndObj n) s
  | stop {v n s o s'} : n ∉ v → Gets env n s o s' → (∀ m g, o.value ≠ .ref m g) → Chain env v n s o s'
  | next {v n s o s1 m g r s'} : n ∉ v → Gets env n s o s1 → o.value = .ref m g → Chain env (n :: v) m s1 r s' → Chain env v n s r s'

/-- The object contains, at any depth, a reference to `n`. -/
inductive Refers : Obj → Int → Prop
  | here {n g} : Refers (.ref n g) n
  | arr {l o n} : o ∈ l → Refers o n → Refers (.arr l) n
  | dict {d : Dict} {k o n} : d.get? k = some o → Refers o n → Refers (.dict d) n

/-- What `GetObject` reads as the value of object `n`, and the bytes after it. -/
inductive ValueAt (env : Env) (n : Int) : Obj → Bytes → Prop
  | mk {e s v err s'} : env.xref.get? n = some e → e.typ = 1 →
      readObj env.file (decrypt env.ext env.verbose (newDecryptor env.ext (if e.isEncrypted then env.sh.stringFilter else .none) n e.generation))
        (readObjectHeader env.file (seek s e.offset)).2 = .ok ((v, err), s') → ValueAt env n v (env.file.drop s'.pos)

/-- `DecodeStream` for each filter in order, each with the parameters at the same position; both may
be given by reference, and anything that is not a name (not a dictionary) counts as absent. -/
def decodeItems (cd : Codecs) (rs : Resolver) : List Obj → List Obj → Option Bytes → M (Option Bytes)
  | [], _, data => pure data
  | f :: fs, ps, data => do
    let f ← deref rs f
    let p ← deref rs (ps.headD .null)
    let data ← decodeStream cd rs (match f with | .name n => n | _ => []) data (match p with | .dict d => d | _ => [])
    decodeItems cd rs fs ps.tail data

end Pdf.Spec
