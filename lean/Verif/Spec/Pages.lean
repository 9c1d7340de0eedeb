import Verif.Spec.Report
import Verif.Spec.Text
/-!
The text of the pages of a document.
-/

namespace Pdf.Spec
open Pdf

/-- The font that a character map with these entries describes: codes have the length of the last one listed, and every code
of a range has the value listed with it (C44). -/
def mapFont (l : List (Bytes × Bytes × Bytes)) : Font :=
  ⟨l.reverse.map fun e => ((beVal e.1 : Int), (beVal e.2.1 : Int), e.2.2), (l.getLast?.map fun e => e.1.length).getD 1⟩

/-- The fonts of a page by name: those of its resources, each with the character map that its ToUnicode stream holds. A font
without one has no entries. -/
def PageFonts (v : View) (page : Dict) (fonts : Bytes → Option Font) : Prop :=
  let d := (v.dict ((v.dict page b!"Resources").getD []) b!"Font").getD []
  ∀ k, if k ∈ d.keys then
      ∃ is, MapText is ((v.streamAt ((v.dict d k).getD []) b!"ToUnicode").getD []) ∧ fonts k = some (mapFont (is.flatMap MapItem.entries))
    else fonts k = none

/-- A content stream shows this text. -/
def Shows (fonts : Bytes → Option Font) (c l : Bytes) : Prop :=
  ∃ ps cs t w, c = t ++ w ∧ Content ps cs ∧ (∀ p ∈ ps, p.Proper) ∧ CmdsAt cs t w ∧ BlankEnd w ∧ ContentText fonts (fun a => strings (evens a)) ps l

/-- Content streams show this text, one after the other. -/
inductive StreamsText (fonts : Bytes → Option Font) : List Bytes → Bytes → Prop
  | nil : StreamsText fonts [] []
  | cons {c cs l t} : Shows fonts c l → StreamsText fonts cs t → StreamsText fonts (c :: cs) (l ++ t)

/-- Pages show this text, one after the other. -/
inductive PagesText (v : View) : List Dict → Bytes → Prop
  | nil : PagesText v [] []
  | cons {page pages fonts l t} : PageFonts v page fonts → StreamsText fonts (contents v page) l → PagesText v pages t → PagesText v (page :: pages) (l ++ t)

/-- The nodes of the page tree that a dictionary has under /Pages. -/
inductive PageNode (v : View) (d : Dict) : Dict → Prop
  | root {root} : v.dict d b!"Pages" = some root → PageNode v d root
  | kid {node n g page} : PageNode v d node → .ref n g ∈ kidsOf v.value node → v.value n = .dict page → PageNode v d page

end Pdf.Spec
