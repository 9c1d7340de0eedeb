import Verif.Spec.Pages
/-!
Fonts with an encoding of their own and no character map (ISO 32000-1, 9.6.6.1, Table 114).
-/

namespace Pdf.Spec
open Pdf

/-- The codes that an array /Differences gives glyphs to, with their names: after a number `n` the names are for the codes `n`, `n + 1` and so on. -/
def differences : Int → List Obj → List (Int × Bytes)
  | _, [] => []
  | _, .num x :: os => differences x.toInt os
  | c, .name g :: os => (c, g) :: differences (c + 1) os
  | c, _ :: os => differences c os

/-- The name of a glyph that is a Latin letter: the letter. -/
def IsLetter (g : Bytes) : Prop := ∃ b : UInt8, g = [b] ∧ (65 ≤ b.toNat ∧ b.toNat ≤ 90 ∨ 97 ≤ b.toNat ∧ b.toNat ≤ 122)

/-- A font with codes of one byte, some of which are letters. -/
def letterFont (l : List (Int × Bytes)) : Font := ⟨l.reverse.map fun e => (e.1, e.1, e.2), 1⟩

/-- The fonts of a page by name, where none has a character map and each has an encoding with letters. -/
def LetterFonts (v : View) (page : Dict) (fonts : Bytes → Option Font) : Prop :=
  let d := (v.dict ((v.dict page b!"Resources").getD []) b!"Font").getD []
  ∀ k, if k ∈ d.keys then
      ∃ info e a, v.dict d k = some info ∧ v.streamAt info b!"ToUnicode" = none ∧ v.dict info b!"Encoding" = some e ∧ v.array e b!"Differences" = some a ∧
        (∀ p ∈ differences 0 a, IsLetter p.2) ∧ fonts k = some (letterFont (differences 0 a))
    else fonts k = none

/-- Codes that a font gives a value have themselves as value. -/
def KeepsCodes (f : Font) : Prop := f.width = 1 ∧ ∀ (b : UInt8) (t : Bytes), f.lookup b.toNat = some t → t = [b]

end Pdf.Spec
