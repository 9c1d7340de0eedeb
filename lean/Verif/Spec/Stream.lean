import Verif.Spec.Syntax
/-!
Stream data (ISO 32000-1, 7.3.8).
-/

namespace Pdf.Spec

/-- The keyword that ends stream data. -/
def endMark : Bytes := b!"endstream"

/-- `e` is a line break in front of `r`: LF, CR LF, or CR (in front of something other than LF). -/
def LineBreak (e r : Bytes) : Prop := e = [10] ∨ e = [13, 10] ∨ (e = [13] ∧ ∃ b t, r = b :: t ∧ b ≠ 10)

/-- `v` is `d` without one trailing line break. -/
inductive Chop : Bytes → Bytes → Prop
  | crlf (v) : Chop (v ++ [13, 10]) v
  | lf (v) : v.getLast? ≠ some 13 → Chop (v ++ [10]) v
  | cr (v) : Chop (v ++ [13]) v
  | none (v) : v.getLast? ≠ some 10 → v.getLast? ≠ some 13 → Chop v v

/-- `d ++ endMark ++ r` with no earlier occurrence of the mark. -/
def FirstMark (d r : Bytes) : Prop := ∀ d' r', d ++ (endMark ++ r) = d' ++ (endMark ++ r') → d.length ≤ d'.length

/-- No occurrence of the mark. -/
def NoMark (d : Bytes) : Prop := ∀ d' r', d ≠ d' ++ (endMark ++ r')

/-- The next `n` bytes of the input (or all that remain) come out of one buffer: the buffer is empty,
as after a seek, and `n` bytes fit in it; or it holds them already; or it holds the rest of the file. -/
def Buffered (file : Bytes) (s : PS) (n : Nat) : Prop :=
  (s.lim ≤ s.pos ∧ n ≤ 4096) ∨ (s.pos + n ≤ s.lim ∧ s.lim ≤ file.length) ∨ s.lim = file.length

end Pdf.Spec
