import Verif.Spec.Grammar
import Verif.Model.Extract
/-!
Content streams and ToUnicode character maps (ISO 32000-1, 7.8.2, 9.4, 9.10.3).
-/

namespace Pdf.Spec

/-! ### Commands -/

/-- An operator with its operands. -/
structure Cmd where
  op : Bytes
  args : List Obj

/-- Operands and operator: `CmdAt c t r`, where `r` follows. Operands are objects other than words. -/
inductive CmdAt : Cmd → Bytes → Bytes → Prop
  | op {w k r} : Blank w → ObjAt (.kw k) k r [] → CmdAt ⟨k, []⟩ (w ++ k) r
  | arg {w o t u k os r e} : Blank w → ObjAt o t (u ++ r) e → (∀ k, o ≠ .kw k) → CmdAt ⟨k, os⟩ u r → CmdAt ⟨k, o :: os⟩ (w ++ (t ++ u)) r

/-- A sequence of commands. -/
inductive CmdsAt : List Cmd → Bytes → Bytes → Prop
  | nil {r} : CmdsAt [] [] r
  | cons {c t cs u r} : CmdAt c t (u ++ r) → CmdsAt cs u r → CmdsAt (c :: cs) (t ++ u) r

/-! ### Text -/

/-- What a font makes of codes: each is replaced by its value or kept. -/
def decodeCodes (value : Bytes → Option Bytes) (codes : List Bytes) : Bytes := codes.flatMap fun c => (value c).getD c

/-- The string a command shows: its last operand. -/
def lastString (args : List Obj) : Bytes :=
  match args.getLast? with
  | some (.str b) => b
  | _ => []

/-- The strings of an array. -/
def strings (l : List Obj) : Bytes := l.flatMap fun o => match o with
  | .str b => b
  | _ => []

/-- The elements at even positions. -/
def evens : List Obj → List Obj
  | [] => []
  | [o] => [o]
  | o :: _ :: t => o :: evens t

/-- The array a command shows: its last operand. -/
def lastArray (args : List Obj) : List Obj :=
  match args.getLast? with
  | some (.arr l) => l
  | _ => []

/-- The font a command `Tf` names, by its last operand but one; the default font when it is not known. -/
def fontNamed (fonts : Bytes → Option Font) (args : List Obj) : Font :=
  match args.reverse with
  | _ :: .name n :: _ => (fonts n).getD fontDefault
  | _ => (fonts []).getD fontDefault

/-- Operators that show one string. -/
def isShow (op : Bytes) : Bool := op = b!"Tj" || op = b!"'" || op = b!"\""

/-- `Decodes font b t`: `b` split into codes of the font's width, a shorter rest dropped. -/
def Decodes (font : Font) (b t : Bytes) : Prop :=
  ∃ (codes : List Bytes) (tail : Bytes), b = codes.flatten ++ tail ∧ (∀ c ∈ codes, c.length = font.width) ∧ tail.length < font.width ∧
    t = decodeCodes (fun c => font.lookup (bytesToInt c)) codes

/-- The text a command shows, not decoded, if it shows any. `tj` is what is taken of the array of `TJ`. -/
def shown (tj : List Obj → Bytes) (c : Cmd) : Option Bytes :=
  if isShow c.op then some (lastString c.args) else if c.op = b!"TJ" then some (tj (lastArray c.args)) else none

/-- The lines of a text block: one for each command that shows text, in the font chosen last. -/
inductive BlockText (fonts : Bytes → Option Font) (tj : List Obj → Bytes) : Font → List Cmd → Bytes → Prop
  | nil {font} : BlockText fonts tj font [] []
  | font {font c cs t} : c.op = b!"Tf" → BlockText fonts tj (fontNamed fonts c.args) cs t → BlockText fonts tj font (c :: cs) t
  | line {font c cs b l t} : shown tj c = some b → Decodes font b l → BlockText fonts tj font cs t → BlockText fonts tj font (c :: cs) (l ++ 10 :: t)
  | other {font c cs t} : c.op ≠ b!"Tf" → shown tj c = none → BlockText fonts tj font cs t → BlockText fonts tj font (c :: cs) t

/-- Part of a content stream: a command outside text blocks, or a text block. -/
inductive Piece where
  | cmd (c : Cmd)
  | block (cs : List Cmd)

/-- Commands outside do not begin a block, those in a block do not end it. -/
def Piece.Proper : Piece → Prop
  | .cmd c => c.op ≠ b!"BT"
  | .block cs => ∀ c ∈ cs, c.op ≠ b!"ET"

/-- The commands of a piece, given the operands written before `BT` and `ET`. -/
inductive Piece.Cmds : Piece → List Cmd → Prop
  | cmd {c} : Piece.Cmds (.cmd c) [c]
  | block {cs a b} : Piece.Cmds (.block cs) (⟨b!"BT", a⟩ :: cs ++ [⟨b!"ET", b⟩])

/-- The commands of a content stream: pieces and possibly a block the stream ends in. -/
inductive Content : List Piece → List Cmd → Prop
  | nil : Content [] []
  | open {cs a} : Content [.block cs] (⟨b!"BT", a⟩ :: cs)
  | cons {p cs ps ds} : p.Cmds cs → Content ps ds → Content (p :: ps) (cs ++ ds)

/-- The text of a content stream: that of its blocks, each starting in the default font. -/
inductive ContentText (fonts : Bytes → Option Font) (tj : List Obj → Bytes) : List Piece → Bytes → Prop
  | nil : ContentText fonts tj [] []
  | cmd {c ps t} : ContentText fonts tj ps t → ContentText fonts tj (.cmd c :: ps) t
  | block {cs ps l t} : BlockText fonts tj fontDefault cs l → ContentText fonts tj ps t → ContentText fonts tj (.block cs :: ps) (l ++ t)

/-! ### Character maps -/

/-- Part of a character map: `n beginbfrange` with `n` ranges of codes, `n beginbfchar` with `n` codes, or
another command. -/
inductive MapItem where
  | ranges (l : List (Bytes × Bytes × Bytes))
  | chars (l : List (Bytes × Bytes))
  | other (c : Cmd)

/-- A hex string with its value, not empty. -/
inductive HexAt : Bytes → Bytes → Prop
  | mk {w ds t k} : Blank w → HexBody ds t k → ds ≠ [] → HexAt (hexPairs ds) (w ++ (60 :: (t ++ [62])))

/-- A code: at most seven bytes. -/
inductive CodeAt : Bytes → Bytes → Prop
  | mk {b t} : HexAt b t → b.length ≤ 7 → CodeAt b t

/-- Ranges: first code, last code, value. -/
inductive RangesAt : List (Bytes × Bytes × Bytes) → Bytes → Prop
  | nil : RangesAt [] []
  | cons {a at' b bt v vt l t} : CodeAt a at' → CodeAt b bt → HexAt v vt → RangesAt l t → RangesAt ((a, b, v) :: l) (at' ++ (bt ++ (vt ++ t)))

/-- Codes and values. -/
inductive CharsAt : List (Bytes × Bytes) → Bytes → Prop
  | nil : CharsAt [] []
  | cons {a at' v vt l t} : CodeAt a at' → HexAt v vt → CharsAt l t → CharsAt ((a, v) :: l) (at' ++ (vt ++ t))

/-- The text of a character map, up to white space at the end. -/
inductive MapText : List MapItem → Bytes → Prop
  | nil {w} : BlankEnd w → MapText [] w
  | ranges {l a ct t is u} : CmdAt ⟨b!"beginbfrange", a ++ [.num (intNum false l.length)]⟩ ct (t ++ u) → RangesAt l t → l.length < 2 ^ 53 → MapText is u →
      MapText (.ranges l :: is) (ct ++ (t ++ u))
  | chars {l a ct t is u} : CmdAt ⟨b!"beginbfchar", a ++ [.num (intNum false l.length)]⟩ ct (t ++ u) → CharsAt l t → l.length < 2 ^ 53 → MapText is u →
      MapText (.chars l :: is) (ct ++ (t ++ u))
  | other {c ct is u} : CmdAt c ct u → c.op ≠ b!"beginbfrange" → c.op ≠ b!"beginbfchar" → MapText is u → MapText (.other c :: is) (ct ++ u)

/-- The ranges of codes a character map lists, with their values, in order. -/
def MapItem.entries : MapItem → List (Bytes × Bytes × Bytes)
  | .ranges l => l
  | .chars l => l.map fun p => (p.1, p.1, p.2)
  | .other _ => []

/-- The last range listed that contains the code `n`: the distance of `n` from its start, and its value. -/
def lastRange (l : List (Bytes × Bytes × Bytes)) (n : Nat) : Option (Nat × Bytes) :=
  (l.reverse.find? fun r => decide (beVal r.1 ≤ n ∧ n ≤ beVal r.2.1)).map fun r => (n - beVal r.1, r.2.2)

/-- The value `k` places after `v`: the number in the last byte goes up by `k`. -/
def plus (v : Bytes) (k : Nat) : Bytes := v.dropLast ++ (v.getLast?.map fun b => UInt8.ofNat (b.toNat + k)).toList

end Pdf.Spec
