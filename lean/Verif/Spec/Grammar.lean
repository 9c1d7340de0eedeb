import Verif.Spec.Double
/-!
Objects as text (ISO 32000-1, 7.3). `ObjAt o t r e`: the text `t`, when the file continues with `r`,
spells the object `o`; `e` lists the unnecessary escapes in it.
-/

namespace Pdf.Spec

/-- The number with the given sign and magnitude. -/
def intNum (neg : Bool) (n : Nat) : F64 :=
  if neg then (if n = 0 then .negZero else .fin (-(n : Rat))) else .fin (n : Rat)

/-- What follows a number and makes it the object number of a reference: an unsigned integer and the
keyword `R`. -/
def RefTail (r : Bytes) : Prop :=
  ∃ (w : Bytes) (ds : List Nat) (w' r' : Bytes), r = w ++ (ds.map decDigit ++ (w' ++ 82 :: r')) ∧ Blank w ∧ Blank w' ∧ ds ≠ [] ∧
    (∀ d ∈ ds, d < 10) ∧ Stops r'

/-- The map with the given entries, later ones overriding earlier ones with the same key. -/
def dictOf (es : List (Bytes × Obj)) : Dict := es.foldl (fun d e => d.set e.1 e.2) []

mutual
inductive ObjAt : Obj → Bytes → Bytes → List Err → Prop
  /-- `true`, `false`, `null` and other words -/
  | kw {b k r} : IsRegular b → ¬ (48 ≤ b.toNat ∧ b.toNat ≤ 57) → b ≠ 43 → b ≠ 45 → b ≠ 46 → (∀ c ∈ k, IsRegular c) → Stops r →
      ObjAt (.kw (b :: k)) (b :: k) r []
  | int {neg sg ds r} : Sign neg sg → (∀ d ∈ ds, d < 10) → ds ≠ [] → decVal ds < 2 ^ 53 → NoDigit r → (∀ u, r ≠ 46 :: u) →
      ¬ RefTail r → ObjAt (.num (intNum neg (decVal ds))) (sg ++ ds.map decDigit) r []
  /-- A number with a point, digits before it or after it, and the double computed from them (`C06` says which of them is the number that is
  written, `C79` that every step is rounded correctly). -/
  | real {neg sg ds fs x y z r} : Sign neg sg → (∀ d ∈ ds, d < 10) → (∀ d ∈ fs, d < 10) → ds ++ fs ≠ [] → WholeDouble ds x → FractionDouble x fs y →
      (if neg then Opposite y z else z = y) → NoDigit r → ¬ RefTail r → ObjAt (.num z) (sg ++ (ds.map decDigit ++ 46 :: fs.map decDigit)) r []
  | ref {ds w gs w' r} : (∀ d ∈ ds, d < 10) → ds ≠ [] → decVal ds < 2 ^ 53 → Blank w → w ≠ [] →
      (∀ d ∈ gs, d < 10) → gs ≠ [] → decVal gs < 2 ^ 63 → Blank w' → w' ≠ [] → Stops r →
      ObjAt (.ref (decVal ds) (decVal gs)) (ds.map decDigit ++ (w ++ (gs.map decDigit ++ (w' ++ [82])))) r []
  | name {v t r e} : NameText v t e → Stops r → ObjAt (.name v) (47 :: t) r e
  | str {v t r e} : StrText v t e → ObjAt (.str v) (40 :: (t ++ [41])) r e
  | hex {ds t r} : HexBody ds t 0 → ObjAt (.str (hexPairs ds)) (60 :: (t ++ [62])) r []
  | arr {os t r e} : ArrAt os t r e → ObjAt (.arr os) (91 :: t) r e
  | dict {es t r e} : DictAt es t r e → ObjAt (.dict (dictOf es)) (60 :: 60 :: t) r e
/-- Elements of an array, after `[`, up to and including `]`. -/
inductive ArrAt : List Obj → Bytes → Bytes → List Err → Prop
  | nil {w r} : Blank w → ArrAt [] (w ++ [93]) r []
  | cons {w o t u os r e e'} : Blank w → ObjAt o t (u ++ r) e → ArrAt os u r e' → ArrAt (o :: os) (w ++ (t ++ u)) r (e ++ e')
/-- Entries of a dictionary, after `<<`, up to and including `>>`. -/
inductive DictAt : List (Bytes × Obj) → Bytes → Bytes → List Err → Prop
  | nil {w r} : Blank w → DictAt [] (w ++ [62, 62]) r []
  | cons {w k kt w' o t u es r e e' e''} : Blank w → NameText k kt e → Blank w' → Stops (w' ++ (t ++ (u ++ r))) →
      ObjAt o t (u ++ r) e' → DictAt es u r e'' →
      DictAt ((k, o) :: es) (w ++ (47 :: kt ++ (w' ++ (t ++ u)))) r (e ++ (e' ++ e''))
end

/-- Entries of a dictionary with stray objects (not names) in key position. -/
inductive DictAny : List (Bytes × Obj) → Bytes → Bytes → List Err → Prop
  | nil {w r} : Blank w → DictAny [] (w ++ [62, 62]) r []
  | cons {w k kt w' o t u es r e e' e''} : Blank w → NameText k kt e → Blank w' → Stops (w' ++ (t ++ (u ++ r))) →
      ObjAt o t (u ++ r) e' → DictAny es u r e'' →
      DictAny ((k, o) :: es) (w ++ (47 :: kt ++ (w' ++ (t ++ u)))) r (e ++ (e' ++ e''))
  | stray {w o t u es r e e'} : Blank w → ObjAt o t (u ++ r) e → (∀ n, o ≠ .name n) → DictAny es u r e' →
      DictAny es (w ++ (t ++ u)) r (e ++ .invalidDictionaryKeyType :: e')

/-! ### Text cut off by the end of the file -/

/-- White space and comments up to the end of the file. -/
def BlankEnd (w : Bytes) : Prop := ∃ b c, w = b ++ c ∧ Blank b ∧ OpenComment c

/-- Contents of a literal string that is never closed. -/
inductive OpenStr : Bytes → Bytes → List Err → Prop
  | eof {v t e} : StrText v t e → ¬ EndsEsc t → OpenStr v t (e ++ [.unclosedString])
  | paren {v t e v' t' e'} : StrText v t e → OpenStr v' t' e' → OpenStr (v ++ 40 :: v') (t ++ 40 :: t') (e ++ e')
  | backslash {v t e} : StrText v t e → OpenStr (v ++ [92]) (t ++ [92]) (e ++ [.unclosedStringEscape])

mutual
/-- An object that the end of the file cuts off, with everything read so far. -/
inductive OpenAt : Obj → Bytes → List Err → Prop
  | str {v t e} : OpenStr v t e → OpenAt (.str v) (40 :: t) e
  | hex {ds t u k} : HexBody ds t k → OpenComment u → (∀ x, t ≠ 60 :: x) →
      OpenAt (.str (hexPairs ds)) (60 :: (t ++ u)) (List.replicate k .invalidHexStringChar ++ [.unclosedHexString])
  | arr {os t e} : OpenArr os t e → OpenAt (.arr os) (91 :: t) e
  | dict {es t e} : OpenDict es t e → OpenAt (.dict (dictOf es)) (60 :: 60 :: t) e
inductive OpenArr : List Obj → Bytes → List Err → Prop
  | eof {w} : BlankEnd w → OpenArr [] w [.unclosedArray]
  | last {w o t e} : Blank w → OpenAt o t e → OpenArr [o] (w ++ t) (e ++ [.unclosedArray])
  | cons {w o t u os e e'} : Blank w → ObjAt o t u e → OpenArr os u e' → OpenArr (o :: os) (w ++ (t ++ u)) (e ++ e')
inductive OpenDict : List (Bytes × Obj) → Bytes → List Err → Prop
  | eof {w} : BlankEnd w → OpenDict [] w [.unclosedDictionary]
  | key {w k kt w' e} : Blank w → NameText k kt e → BlankEnd w' → Stops w' →
      OpenDict [] (w ++ (47 :: kt ++ w')) (e ++ [.missingDictionaryValue])
  | last {w k kt w' o t e e'} : Blank w → NameText k kt e → Blank w' → Stops (w' ++ t) → OpenAt o t e' →
      OpenDict [(k, o)] (w ++ (47 :: kt ++ (w' ++ t))) (e ++ (e' ++ [.unclosedDictionary]))
  | cons {w k kt w' o t u es e e' e''} : Blank w → NameText k kt e → Blank w' → Stops (w' ++ (t ++ u)) →
      ObjAt o t u e' → OpenDict es u e'' →
      OpenDict ((k, o) :: es) (w ++ (47 :: kt ++ (w' ++ (t ++ u)))) (e ++ (e' ++ e''))
end

/-- A number token `t` that ends where `r` begins: sign, digits, point, digits (longest match). -/
inductive NumToken : Bytes → Bytes → Prop
  | int {neg sg r} {ds : List Nat} : Sign neg sg → (∀ d ∈ ds, d < 10) → sg ++ ds.map decDigit ≠ [] → NoDigit r → (∀ u, r ≠ 46 :: u) →
      NumToken (sg ++ ds.map decDigit) r
  | real {neg sg r} {ds fs : List Nat} : Sign neg sg → (∀ d ∈ ds, d < 10) → (∀ d ∈ fs, d < 10) → NoDigit r →
      NumToken (sg ++ (ds.map decDigit ++ 46 :: fs.map decDigit)) r

end Pdf.Spec
