import Verif.Spec.Pages
import Verif.Spec.Document
/-!
The resources of pages, which a page without them has from the nodes above it (ISO 32000-1, 7.7.3.4).
-/

namespace Pdf.Spec
open Pdf

/-- The resources of the nodes of the page tree that a dictionary has under /Pages: those a node has itself, or else those of
the node above it. -/
inductive ResourcesAt (v : View) (d : Dict) : Dict → Option Dict → Prop
  | root {root} : v.dict d b!"Pages" = some root → ResourcesAt v d root (v.dict root b!"Resources")
  | kid {node n g page res} : ResourcesAt v d node res → .ref n g ∈ kidsOf v.value node → v.value n = .dict page →
      ResourcesAt v d page ((v.dict page b!"Resources").or res)

/-- The fonts of resources by name, each with the character map that its ToUnicode stream holds. -/
def ResourceFonts (v : View) (res : Option Dict) (fonts : Bytes → Option Font) : Prop :=
  let d := (v.dict (res.getD []) b!"Font").getD []
  ∀ k, if k ∈ d.keys then
      ∃ is, MapText is ((v.streamAt ((v.dict d k).getD []) b!"ToUnicode").getD []) ∧ fonts k = some (mapFont (is.flatMap MapItem.entries))
    else fonts k = none

/-- `d` is the only dictionary of the document with pages: no other dictionary of its object has any, and none of another object. -/
def OnlyPages (us : List Update) (v : View) (d : Dict) : Prop :=
  ∃ n p a b, meant us n = some p ∧ dictsOf p.obj = a ++ d :: b ∧ (∀ x ∈ a ++ b, v.dict x b!"Pages" = none) ∧
    ∀ m q, m ≠ n → meant us m = some q → ∀ x ∈ dictsOf q.obj, v.dict x b!"Pages" = none

end Pdf.Spec
