import Verif.Model.Monad
/-!
Typed access to dictionaries and arrays (dictionary.go, array.go). The Go functions return a value
and a flag; here `none` is `false` (the value then is the zero value of the type).
-/

namespace Pdf

/-- A value that may be a reference: dictionary.go:119-122, array.go:89-92 -/
def deref (rs : Resolver) (o : Obj) : M Obj :=
  match o with
  | .ref n _ => rs n >>= fun i => pure i.value
  | o => pure o

/-- dictionary.go:117-125 `Dictionary.GetObject` -/
def Dict.getObject (rs : Resolver) (d : Dict) (key : Bytes) : M (Option Obj) :=
  match d.get? key with
  | some o => deref rs o >>= fun v => pure (some v)
  | none => pure none

/-- array.go:86-95 `Array.GetObject` (negative indexes are out of range) -/
def Arr.getObject (rs : Resolver) (a : List Obj) (i : Int) : M (Option Obj) :=
  if i < 0 then pure none
  else match a[i.toNat]? with
    | some o => deref rs o >>= fun v => pure (some v)
    | none => pure none

/-- the type assertions of the getters: `object.(Array)` -/
def Obj.asArr? : Obj → Option (List Obj) | .arr l => some l | _ => none
/-- `object.(Dictionary)` -/
def Obj.asDict? : Obj → Option Dict | .dict l => some l | _ => none
/-- `object.(Name)` -/
def Obj.asName? : Obj → Option Bytes | .name b => some b | _ => none
/-- `object.(String)` -/
def Obj.asStr? : Obj → Option Bytes | .str b => some b | _ => none
/-- `object.(Number)` -/
def Obj.asNum? : Obj → Option F64 | .num x => some x | _ => none
/-- dictionary.go:33-39, array.go:33-39 -/
def Obj.asBool? : Obj → Option Bool
  | .kw b => if b = b!"true" then some true else if b = b!"false" then some false else none
  | _ => none

/-- dictionary.go:22-29 `GetArray` -/
def Dict.getArray (rs : Resolver) (d : Dict) (k : Bytes) : M (Option (List Obj)) :=
  Dict.getObject rs d k >>= fun o => pure (o.bind Obj.asArr?)
/-- dictionary.go:31-42 `GetBool` -/
def Dict.getBool (rs : Resolver) (d : Dict) (k : Bytes) : M (Option Bool) :=
  Dict.getObject rs d k >>= fun o => pure (o.bind Obj.asBool?)
/-- dictionary.go:49-56 `GetDictionary` -/
def Dict.getDict (rs : Resolver) (d : Dict) (k : Bytes) : M (Option Dict) :=
  Dict.getObject rs d k >>= fun o => pure (o.bind Obj.asDict?)
/-- dictionary.go:68-75 `GetName` -/
def Dict.getName (rs : Resolver) (d : Dict) (k : Bytes) : M (Option Bytes) :=
  Dict.getObject rs d k >>= fun o => pure (o.bind Obj.asName?)
/-- dictionary.go:108-115 `GetNumber` -/
def Dict.getNumber (rs : Resolver) (d : Dict) (k : Bytes) : M (Option F64) :=
  Dict.getObject rs d k >>= fun o => pure (o.bind Obj.asNum?)
/-- dictionary.go:58-66 `GetInt`, `GetInt64` (both 64 bits) -/
def Dict.getInt (rs : Resolver) (d : Dict) (k : Bytes) : M (Option Int) :=
  Dict.getNumber rs d k >>= fun o => pure (o.map F64.toInt)
/-- dictionary.go:175-182 `GetString`, 44-47 `GetBytes` -/
def Dict.getString (rs : Resolver) (d : Dict) (k : Bytes) : M (Option Bytes) :=
  Dict.getObject rs d k >>= fun o => pure (o.bind Obj.asStr?)
/-- dictionary.go:166-173 `GetStream`: only through a direct reference; the inner option is a nil
slice -/
def Dict.getStream (rs : Resolver) (d : Dict) (k : Bytes) : M (Option (Option Bytes)) :=
  match d.get? k with
  | some (.ref n _) => rs n >>= fun i => pure (some i.stream)
  | _ => pure none

/-- dictionary.go:157-164 `GetReference`: number and generation of a direct reference -/
def Dict.getReference (d : Dict) (k : Bytes) : Option (Int × Int) :=
  match d.get? k with
  | some (.ref n g) => some (n, g)
  | _ => none

/-- array.go:22-29 `GetArray` -/
def Arr.getArray (rs : Resolver) (a : List Obj) (i : Int) : M (Option (List Obj)) :=
  Arr.getObject rs a i >>= fun o => pure (o.bind Obj.asArr?)
/-- array.go:31-42 `GetBool` -/
def Arr.getBool (rs : Resolver) (a : List Obj) (i : Int) : M (Option Bool) :=
  Arr.getObject rs a i >>= fun o => pure (o.bind Obj.asBool?)
/-- array.go:49-56 `GetDictionary` -/
def Arr.getDict (rs : Resolver) (a : List Obj) (i : Int) : M (Option Dict) :=
  Arr.getObject rs a i >>= fun o => pure (o.bind Obj.asDict?)
/-- array.go:68-75 `GetName` -/
def Arr.getName (rs : Resolver) (a : List Obj) (i : Int) : M (Option Bytes) :=
  Arr.getObject rs a i >>= fun o => pure (o.bind Obj.asName?)
/-- array.go:77-84 `GetNumber` -/
def Arr.getNumber (rs : Resolver) (a : List Obj) (i : Int) : M (Option F64) :=
  Arr.getObject rs a i >>= fun o => pure (o.bind Obj.asNum?)
/-- array.go:58-66 `GetInt`, `GetInt64` -/
def Arr.getInt (rs : Resolver) (a : List Obj) (i : Int) : M (Option Int) :=
  Arr.getNumber rs a i >>= fun o => pure (o.map F64.toInt)
/-- array.go:106-113 `GetString`, 44-47 `GetBytes` -/
def Arr.getString (rs : Resolver) (a : List Obj) (i : Int) : M (Option Bytes) :=
  Arr.getObject rs a i >>= fun o => pure (o.bind Obj.asStr?)
/-- array.go:97-104 `GetStream` -/
def Arr.getStream (rs : Resolver) (a : List Obj) (i : Int) : M (Option (Option Bytes)) :=
  if i < 0 then pure none
  else match a[i.toNat]? with
    | some (.ref n _) => rs n >>= fun o => pure (some o.stream)
    | _ => pure none

end Pdf
