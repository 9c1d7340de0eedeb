import Verif.Spec.Inherited
/-!
The text of pages with what ISO 32000-1 has besides strings at even positions of `TJ` arrays: all strings of the array (9.4.3), and
form XObjects, which content streams draw with `Do` (8.10.1).
-/

namespace Pdf.Spec
open Pdf

/-- A content stream shows this text, with all strings of the arrays of `TJ`. -/
def ShowsAll (fonts : Bytes → Option Font) (c l : Bytes) : Prop :=
  ∃ ps cs t w, c = t ++ w ∧ Content ps cs ∧ (∀ p ∈ ps, p.Proper) ∧ CmdsAt cs t w ∧ BlankEnd w ∧ ContentText fonts strings ps l

/-- A content stream has a command `Do` with this name. -/
def Does (c name : Bytes) : Prop := ∃ cs t w, c = t ++ w ∧ CmdsAt cs t w ∧ BlankEnd w ∧ ⟨b!"Do", [.name name]⟩ ∈ cs

/-- A page draws this form, with this content: a content stream of the page has a `Do` with a name that the page's resources have for the form. -/
def Draws (v : View) (page form : Dict) (data : Bytes) : Prop :=
  ∃ c ∈ contents v page, ∃ name, Does c name ∧ ∃ res xs, v.dict page b!"Resources" = some res ∧ v.dict res b!"XObject" = some xs ∧
    v.dict xs name = some form ∧ v.streamAt xs name = some data ∧ form.get? b!"Subtype" = some (.name b!"Form")

end Pdf.Spec
