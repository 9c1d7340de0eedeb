import Verif.Spec.Document
/-!
Object streams (ISO 32000-1, 7.5.7): streams whose data is a list of objects.
-/

namespace Pdf.Spec
open Pdf

/-- Pairs of a number and an offset. -/
inductive PairsText : List (Int × Nat) → Bytes → Prop
  | nil {w} : Blank w → PairsText [] w
  | cons {w ds w' gs ps t} : Blank w → (∀ d ∈ ds, d < 10) → ds ≠ [] → Blank w' → w' ≠ [] → (∀ d ∈ gs, d < 10) → gs ≠ [] → NoDigit t → PairsText ps t →
      PairsText ((decVal ds, decVal gs) :: ps) (w ++ (ds.map decDigit ++ (w' ++ (gs.map decDigit ++ t))))

/-- A stream with dictionary `D` and decoded data holds the given objects: /N is how many there are, /First where the first one
starts, and the offsets count from there. -/
structure Packed (D : Dict) (data : Bytes) (objs : List (Int × Obj)) : Prop where
  type : D.get? b!"Type" = some (.name b!"ObjStm")
  count : D.get? b!"N" = some (.num (.fin (objs.length : Nat)))
  objects : ∃ pairs head body, data = head ++ body ∧ D.get? b!"First" = some (.num (.fin (head.length : Nat))) ∧ PairsText pairs head ∧ pairs.length = objs.length ∧
    ∀ (i : Nat) n o, objs[i]? = some (n, o) → ∃ off t r es, pairs[i]? = some (n, off) ∧ body.drop off = t ++ r ∧ ObjAt o t r es

/-- The newest section that lists the number `n` says that it is in an object stream of the document, and there it is `o`.
(For such entries, of type 2, the second field is the number of the stream and the third the index in it.) -/
def InStream (us : List Update) (n : Int) (o : Obj) : Prop :=
  ∃ x p D data objs, entryFor us n = some x ∧ x.typ = 2 ∧ meant us x.offset = some p ∧ p.obj.value = .dict D ∧ p.obj.stream = some data ∧ Packed D data objs ∧
    0 ≤ x.generation ∧ objs[x.generation.toNat]? = some (n, o)

end Pdf.Spec
