import Verif.Spec.Grammar
import Verif.Spec.Stream
import Verif.Model.GetObject
/-!
Indirect objects as text (ISO 32000-1, 7.3.10, 7.3.8) and the filters of a stream (7.4).
-/

namespace Pdf.Spec

/-- `12 0 obj`: object number, generation, keyword. -/
inductive HeaderText : List Nat → List Nat → Bytes → Prop
  | mk {w ds w1 gs w2} : Blank w → (∀ d ∈ ds, d < 10) → ds ≠ [] → Blank w1 → w1 ≠ [] → (∀ d ∈ gs, d < 10) → gs ≠ [] → Blank w2 →
      HeaderText ds gs (w ++ (ds.map decDigit ++ (w1 ++ (gs.map decDigit ++ (w2 ++ b!"obj")))))

/-- The keyword `stream` comes next. -/
def StreamNext (r : Bytes) : Prop := ∃ w r', r = w ++ (b!"stream" ++ r') ∧ Blank w ∧ Stops r'

/-- The filter names a stream dictionary lists, directly: none, a name or an array of names. -/
inductive Filters (d : Dict) : List Bytes → Prop
  | none : d.get? b!"Filter" = none → Filters d []
  | one {f} : d.get? b!"Filter" = some (.name f) → Filters d [f]
  | many {fs : List Bytes} : d.get? b!"Filter" = some (.arr (fs.map .name)) → Filters d fs

/-- The parameters of a filter: a dictionary, or `null` for none. -/
inductive Parm : Obj → Dict → Prop
  | dict {p} : Parm (.dict p) p
  | null : Parm .null []

/-- Parameters listed one after the other. -/
inductive ParmList : List Obj → List Dict → Prop
  | nil : ParmList [] []
  | cons {o p os ps} : Parm o p → ParmList os ps → ParmList (o :: os) (p :: ps)

/-- The decode parameters of the filters, by position; missing ones are empty. -/
inductive Parms (d : Dict) : List Dict → Prop
  | none : d.get? b!"DecodeParms" = none → Parms d []
  | one {p} : d.get? b!"DecodeParms" = some (.dict p) → Parms d [p]
  | many {os ps} : d.get? b!"DecodeParms" = some (.arr os) → ParmList os ps → Parms d ps

/-- `DecodeStream` for each filter in order, with the parameters at the same position. -/
def decodeAll (cd : Codecs) (rs : Resolver) : List Bytes → List Dict → Option Bytes → M (Option Bytes)
  | [], _, data => pure data
  | f :: fs, ps, data => decodeStream cd rs f data (ps.headD []) >>= decodeAll cd rs fs ps.tail

end Pdf.Spec
