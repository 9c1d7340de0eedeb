import Verif.Model.Reader
/-!
PDF object values (object.go, keyword.go, number.go, name.go, string.go, array.go, dictionary.go,
reference.go) and their `String()` methods.
-/

namespace Pdf

/-- object.go:8-10 `Object` and its implementations. `dict` is a Go map (unique keys, unspecified
iteration order). `ref` omits the `parser` pointer (reference.go:9): references are resolved by the
parser that read them, which the callers supply. -/
inductive Obj where
  | kw (b : Bytes)
  | num (x : F64)
  | name (b : Bytes)
  | str (b : Bytes)
  | arr (l : List Obj)
  | dict (l : List (Bytes × Obj))
  | ref (n g : Int)
deriving Repr

/-- keyword.go:10 `KEYWORD_NULL` -/
abbrev Obj.null : Obj := .kw b!"null"

mutual
/-- Decidable equality (used by examples only). -/
def Obj.decEq : (a b : Obj) → Decidable (a = b)
  | .kw x, .kw y => if h : x = y then isTrue (by rw [h]) else isFalse (by intro e; cases e; exact h rfl)
  | .num x, .num y => if h : x = y then isTrue (by rw [h]) else isFalse (by intro e; cases e; exact h rfl)
  | .name x, .name y => if h : x = y then isTrue (by rw [h]) else isFalse (by intro e; cases e; exact h rfl)
  | .str x, .str y => if h : x = y then isTrue (by rw [h]) else isFalse (by intro e; cases e; exact h rfl)
  | .arr x, .arr y => match Obj.decEqL x y with
    | isTrue h => isTrue (by rw [h])
    | isFalse h => isFalse (by intro e; cases e; exact h rfl)
  | .dict x, .dict y => match Obj.decEqD x y with
    | isTrue h => isTrue (by rw [h])
    | isFalse h => isFalse (by intro e; cases e; exact h rfl)
  | .ref a b, .ref c d =>
    if h : a = c then if h' : b = d then isTrue (by rw [h, h'])
      else isFalse (by intro e; cases e; exact h' rfl) else isFalse (by intro e; cases e; exact h rfl)
  | .kw _, .num _ | .kw _, .name _ | .kw _, .str _ | .kw _, .arr _ | .kw _, .dict _ | .kw _, .ref _ _
  | .num _, .kw _ | .num _, .name _ | .num _, .str _ | .num _, .arr _ | .num _, .dict _ | .num _, .ref _ _
  | .name _, .kw _ | .name _, .num _ | .name _, .str _ | .name _, .arr _ | .name _, .dict _ | .name _, .ref _ _
  | .str _, .kw _ | .str _, .num _ | .str _, .name _ | .str _, .arr _ | .str _, .dict _ | .str _, .ref _ _
  | .arr _, .kw _ | .arr _, .num _ | .arr _, .name _ | .arr _, .str _ | .arr _, .dict _ | .arr _, .ref _ _
  | .dict _, .kw _ | .dict _, .num _ | .dict _, .name _ | .dict _, .str _ | .dict _, .arr _ | .dict _, .ref _ _
  | .ref _ _, .kw _ | .ref _ _, .num _ | .ref _ _, .name _ | .ref _ _, .str _ | .ref _ _, .arr _ | .ref _ _, .dict _ =>
    isFalse (by intro e; cases e)
def Obj.decEqL : (a b : List Obj) → Decidable (a = b)
  | [], [] => isTrue rfl
  | [], _ :: _ => isFalse (by intro e; cases e)
  | _ :: _, [] => isFalse (by intro e; cases e)
  | x :: xs, y :: ys => match Obj.decEq x y with
    | isFalse h => isFalse (by intro e; cases e; exact h rfl)
    | isTrue h => match Obj.decEqL xs ys with
      | isTrue h' => isTrue (by rw [h, h'])
      | isFalse h' => isFalse (by intro e; cases e; exact h' rfl)
def Obj.decEqD : (a b : List (Bytes × Obj)) → Decidable (a = b)
  | [], [] => isTrue rfl
  | [], _ :: _ => isFalse (by intro e; cases e)
  | _ :: _, [] => isFalse (by intro e; cases e)
  | (k, x) :: xs, (k', y) :: ys =>
    if hk : k = k' then match Obj.decEq x y with
      | isFalse h => isFalse (by intro e; cases e; exact h rfl)
      | isTrue h => match Obj.decEqD xs ys with
        | isTrue h' => isTrue (by rw [h, h', hk])
        | isFalse h' => isFalse (by intro e; cases e; exact h' rfl)
    else isFalse (by intro e; cases e; exact hk rfl)
end

instance : DecidableEq Obj := Obj.decEq

/-- A Go `Dictionary` (dictionary.go:7). -/
abbrev Dict := Assoc Bytes Obj

mutual
/-- The `String()` methods: keyword.go:33, number.go:9, name.go:5, string.go:5, array.go:9-20,
dictionary.go:9-20 (in the order of the list, see `reorder`), reference.go:18-20. -/
def Obj.toBytes : Obj → Bytes
  | .kw b => b
  | .num x => x.toBytes
  | .name b => ch%'/' :: b
  | .str b => [ch%'('] ++ b ++ [ch%')']
  | .arr l => [ch%'['] ++ Obj.arrBytes l ++ [ch%']']
  | .dict l => b!"<<" ++ Obj.dictBytes l ++ b!">>"
  | .ref n g => intDigits n ++ [0x20] ++ intDigits g ++ b!" R"
/-- array.go:12-17: elements separated by single spaces -/
def Obj.arrBytes : List Obj → Bytes
  | [] => []
  | o :: t => o.toBytes ++ (if t.isEmpty then [] else [0x20]) ++ Obj.arrBytes t
/-- dictionary.go:12-17 -/
def Obj.dictBytes : List (Bytes × Obj) → Bytes
  | [] => []
  | (k, v) :: t => [ch%'/'] ++ k ++ [0x20] ++ v.toBytes ++ Obj.dictBytes t
end

/-- object.go:12-17 `IndirectObject`; `stream = none` is a nil slice. -/
structure IndObj where
  number : Int
  generation : Int
  value : Obj
  stream : Option Bytes
deriving Repr, DecidableEq

/-- object.go:19-21 `NewIndirectObject` -/
def newIndObj (n : Int) : IndObj := ⟨n, 0, Obj.null, none⟩

/-- object.go:23-31 `IndirectObject.String` -/
def IndObj.toBytes (o : IndObj) : Bytes :=
  intDigits o.number ++ [0x20] ++ intDigits o.generation ++ b!" obj\n" ++ o.value.toBytes ++ b!"\n"
    ++ (match o.stream with
        | some d => b!"stream\n" ++ d ++ b!"\nendstream\n"
        | none => [])
    ++ b!"endobj\n"

end Pdf
