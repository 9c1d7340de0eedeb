import Verif.Props.Secret
import Verif.Spec.Write
/-!
C85: files written as a history of edits.
-/

namespace Pdf.Props
open Pdf Pdf.Spec St

/-! ### Numbers and entries -/

theorem natText_digits {n : Nat} (h : n < 2 ^ 63) : NatText n (natDigits n) := by
  obtain ⟨ds, h1, h2, h3, h4, -⟩ := natDigits_spec n
  have := NatText.mk h2 h3 (by rw [h4]; exact h)
  rwa [h4, ← h1] at this

theorem decVal_zeros (k : Nat) (ds : List Nat) : Spec.decVal (List.replicate k 0 ++ ds) = Spec.decVal ds := by
  induction k with
  | zero => rfl
  | succ k ih =>
    rw [List.replicate_succ, List.cons_append]
    have : ∀ l, Spec.decVal (0 :: l) = Spec.decVal l := by intro l; simp [Spec.decVal]
    rw [this, ih]

theorem natText_padded {k n : Nat} (h : n < 2 ^ 63) : NatText n (padded k n) := by
  obtain ⟨ds, h1, h2, h3, h4, -⟩ := natDigits_spec n
  have h5 : Spec.decVal (List.replicate (k - (natDigits n).length) 0 ++ ds) = n := by rw [decVal_zeros, h4]
  have := NatText.mk (ds := List.replicate (k - (natDigits n).length) 0 ++ ds) (by
    intro d hd
    rcases List.mem_append.1 hd with hd | hd
    · rw [(List.mem_replicate.1 hd).2]; decide
    · exact h2 d hd) (by simp [h3]) (by rw [h5]; exact h)
  rw [h5] at this
  have e : padded k n = (List.replicate (k - (natDigits n).length) 0 ++ ds).map decDigit := by
    rw [padded, List.map_append, List.map_replicate, ← h1]; rfl
  rw [e]
  exact this

/-- Each entry in a subsection of its own. -/
def rowSubs (rs : List (Nat × Line)) : List (Nat × List Line) := rs.map fun r => (r.1, [r.2])

/-- An entry without the white space after it. -/
def rowCore (r : Nat × Line) : Bytes :=
  natDigits r.1 ++ ([32] ++ (natDigits 1 ++ ([10] ++ (padded 10 r.2.offset ++ ([32] ++ (padded 5 r.2.generation ++ ([32] ++ (if r.2.inUse then [110] else [102]))))))))

theorem rowText_core (r : Nat × Line) : rowText r = rowCore r ++ [32, 10] := by
  rw [rowText, rowCore, show natDigits 1 = [49] from rfl]
  split <;> simp

/-- Entries with white space before each. -/
def rowsBody : Bytes → List (Nat × Line) → Bytes
  | _, [] => []
  | w, r :: rs => w ++ (rowCore r ++ rowsBody [32, 10] rs)

theorem rowsBody_text (w : Bytes) {rs : List (Nat × Line)} (h : rs ≠ []) : rowsBody w rs ++ [32, 10] = w ++ rs.flatMap rowText := by
  induction rs generalizing w with
  | nil => exact absurd rfl h
  | cons r rs ih =>
    rw [rowsBody, List.flatMap_cons, rowText_core]
    cases rs with
    | nil => simp [rowsBody]
    | cons r' rs =>
      have := ih [32, 10] (by simp)
      rw [List.append_assoc, List.append_assoc, this]
      simp

theorem gapSpace : Gap [32] := gap_of (by decide)
theorem gapLine : Gap [10] := gap_of (by decide)
theorem gapEnd : Gap [32, 10] := gap_of (by decide)

theorem sections_rows {rs : List (Nat × Line)} (h : ∀ r ∈ rs, r.1 < 2 ^ 62 ∧ r.2.offset < 2 ^ 63 ∧ r.2.generation < 2 ^ 63) : ∀ {w}, Gap w → SectionsText (rowSubs rs) (rowsBody w rs) := by
  induction rs with
  | nil => intro w _; exact .nil
  | cons r rs ih =>
    intro w hw
    obtain ⟨h1, h2, h3⟩ := h r (by simp)
    have := SectionsText.cons (ls := [r.2]) hw (natText_digits (n := r.1) (by omega)) gapSpace (natText_digits (n := 1) (by decide))
      (.cons (u := r.2.inUse) gapLine (natText_padded (k := 10) h2) gapSpace (natText_padded (k := 5) h3) gapSpace .nil) (by simp only [List.length_singleton]; omega) (ih (fun r hr => h r (by simp [hr])) gapEnd)
    rw [rowsBody, rowCore]
    simp only [List.append_assoc, List.append_nil] at this ⊢
    exact this

theorem table_rows {pos : Nat} {e : Edit} (h : ∀ r ∈ e.rows pos, r.1 < 2 ^ 62 ∧ r.2.offset < 2 ^ 63 ∧ r.2.generation < 2 ^ 63) : TableText (rowSubs (e.rows pos)) (e.table pos) := by
  by_cases hne : e.rows pos = []
  · have := TableText.mk (w := []) (w1 := [10]) (w2 := [10]) .nil .nil gapLine gapLine.1
    rw [Edit.table, hne]
    exact this
  have := TableText.mk (w := []) (w1 := [32, 10]) (w2 := [10]) .nil (sections_rows h gapLine) gapEnd gapLine.1
  rw [Edit.table]
  have e2 : [] ++ (b!"xref" ++ (rowsBody [10] (e.rows pos) ++ ([32, 10] ++ (b!"trailer" ++ [10])))) = b!"xref\n" ++ ((e.rows pos).flatMap rowText ++ b!"trailer\n") := by
    rw [← List.append_assoc (rowsBody _ _), rowsBody_text _ hne]
    simp
  rw [← e2]
  exact this

theorem putRows_mem {r : Nat × Line} : ∀ {os : List IndObj} {pos : Nat}, r ∈ putRows pos os → ∃ o ∈ os, r.1 = o.number.toNat ∧ r.2.generation = o.generation.toNat ∧ r.2.offset ≤ pos + (objectsText os).length ∧ r.2.inUse = true := by
  intro os
  induction os with
  | nil => intro pos h; cases h
  | cons o os ih =>
    intro pos h
    rw [objectsText, List.flatMap_cons, List.length_append]
    rcases List.mem_cons.1 h with rfl | h
    · exact ⟨o, by simp, rfl, rfl, by show pos ≤ _; omega, rfl⟩
    · obtain ⟨o', h1, h2, h3, h4, h5⟩ := ih h
      refine ⟨o', by simp [h1], h2, h3, ?_, h5⟩
      rw [objectsText] at h4
      omega

theorem rows_small {pos : Nat} {e : Edit} (he : e.Stored) (hpos : pos + (objectsText e.puts).length < 2 ^ 63) : ∀ r ∈ e.rows pos, r.1 < 2 ^ 62 ∧ r.2.offset < 2 ^ 63 ∧ r.2.generation < 2 ^ 63 := by
  intro r hr
  rcases List.mem_append.1 hr with hr | hr
  · obtain ⟨n, hn, rfl⟩ := List.mem_map.1 hr
    exact ⟨he.frees n hn, by show 0 < _; decide, by show 65535 < _; decide⟩
  · obtain ⟨o, h1, h2, h3, h4, -⟩ := putRows_mem hr
    obtain ⟨g1, -, g3, -⟩ := he.objects o h1
    have := g1.number
    have := g1.generation
    refine ⟨by omega, by omega, by omega⟩

/-! ### Updates -/

/-- A way to take stored objects: number, generation and value are as stored. -/
class Keeps (μ : IndObj → IndObj) : Prop where
  number : ∀ o, (μ o).number = o.number
  generation : ∀ o, (μ o).generation = o.generation
  value : ∀ o, (μ o).value = o.value

instance : Keeps reread := ⟨fun _ => rfl, fun _ => rfl, fun _ => rfl⟩

/-- Printed objects as pieces of a file. -/
def piecesBy (μ : IndObj → IndObj) (os : List IndObj) : List Part := os.map fun o => ⟨μ o, [], o.toBytes ++ b!"\n"⟩

variable {μ : IndObj → IndObj} [Keeps μ]
set_option linter.unusedSectionVars false


/-- The trailer. -/
def trailerOf (root : Nat) : Option Nat → List (Bytes × Obj)
  | none => [(b!"Root", .ref root 0)]
  | some p => [(b!"Root", .ref root 0), (b!"Prev", .num (intNum false p))]

/-- An edit as an update. -/
def updateBy (μ : IndObj → IndObj) (root pos : Nat) (prev : Option Nat) (e : Edit) : Update where
  parts := piecesBy μ e.puts
  sect := .table (rowSubs (e.rows pos)) (trailerOf root prev) [] (e.table pos) (b!"/Root " ++ (natDigits root ++ (b!" 0 R" ++ (prevText prev ++ b!">>")))) b!"\n"
  back := b!"startxref\n" ++ (natDigits (pos + (objectsText e.puts).length) ++ b!"\n%%EOF\n")

theorem joined_pieces (os : List IndObj) : joined (piecesBy μ os) = objectsText os := by
  rw [joined, piecesBy, objectsText, List.flatMap_map]

theorem updateBy_text (root pos : Nat) (prev : Option Nat) (e : Edit) : (updateBy μ root pos prev e).text = e.text root pos prev := by
  rw [Update.text, Update.tail, updateBy, Sect.text, Edit.text, joined_pieces]
  simp

theorem updateBy_place (root pos : Nat) (prev : Option Nat) (e : Edit) : (updateBy μ root pos prev e).place pos = pos + (objectsText e.puts).length := by
  rw [Update.place, updateBy]
  dsimp only
  rw [joined_pieces]

/-- Edits as updates. -/
def updatesBy (μ : IndObj → IndObj) (root : Nat) : Nat → Option Nat → List Edit → List Update
  | _, _, [] => []
  | pos, prev, e :: es => updateBy μ root pos prev e :: updatesBy μ root (pos + (e.text root pos prev).length) (some (pos + (objectsText e.puts).length)) es

theorem updatesBy_text (root : Nat) : ∀ (es : List Edit) (pos : Nat) (prev : Option Nat), (updatesBy μ root pos prev es).flatMap (·.text) = editsText root pos prev es := by
  intro es
  induction es with
  | nil => intros; rfl
  | cons e es ih => intro pos prev; rw [updatesBy, editsText, List.flatMap_cons, ih, updateBy_text]

theorem docText_updatesBy (root : Nat) (es : List Edit) : docText docHead (updatesBy μ root 9 none es) = fileText root es := by
  rw [docText, updatesBy_text, fileText, docHead]

theorem toInt_intNum {n : Nat} (h : n < 2 ^ 53) : (intNum false n).toInt = n := by
  symm
  rw [← toInt_iff]
  rw [intNum, if_neg (by decide)]
  refine .nonneg (by omega) (by simp) (by simp) (by omega)

theorem trailerOf_text {root : Nat} {prev : Option Nat} (hr : root < 2 ^ 53) (hp : ∀ p, prev = some p → p < 2 ^ 53) (z : Bytes) :
    DictAny (trailerOf root prev) (b!"/Root " ++ (natDigits root ++ (b!" 0 R" ++ (prevText prev ++ b!">>")))) z [] := by
  obtain ⟨ds, h1, h2, h3, h4, -⟩ := natDigits_spec root
  have hroot : ∀ r, Stops r → ObjAt (.ref root 0) (natDigits root ++ b!" 0 R") r [] := by
    intro r hs
    have := ObjAt.ref (w := [32]) (gs := [0]) (w' := [32]) h2 h3 (by rw [h4]; exact hr) (blank_of_white (by decide)) (by decide) (by decide) (by decide) (by decide) (blank_of_white (by decide)) (by decide) hs
    rw [h4] at this
    rw [h1]
    exact this
  cases prev with
  | none =>
    have := DictAny.cons (w := []) (k := b!"Root") (kt := b!"Root") (w' := b!" ") (t := natDigits root ++ b!" 0 R") (u := b!">>") (r := z) (e := []) (e' := []) (e'' := []) .nil (nameText_plain _ (by decide)) (blank_of_white (by decide))
      (stops_of (by decide)) (hroot _ (stops_of (by decide))) (.nil (w := []) .nil)
    simpa [prevText, trailerOf] using this
  | some p =>
    obtain ⟨ps, g1, g2, g3, g4, -⟩ := natDigits_spec p
    have hprev : ObjAt (.num (intNum false p)) (natDigits p) (b!">>" ++ z) [] := by
      have := ObjAt.int (neg := false) (sg := []) (r := b!">>" ++ z) .none g2 g3 (by rw [g4]; exact hp p rfl) (by rintro b t ⟨⟩; decide) (by rintro u ⟨⟩) (no_refTail _)
      rw [g4] at this
      rw [g1]
      exact this
    have := DictAny.cons (w := []) (k := b!"Root") (kt := b!"Root") (w' := b!" ") (t := natDigits root ++ b!" 0 R") (r := z) (e := []) (e' := []) (e'' := []) .nil (nameText_plain _ (by decide)) (blank_of_white (by decide))
      (stops_of (by decide)) (hroot _ (stops_of (by decide))) (DictAny.cons (w := []) (k := b!"Prev") (kt := b!"Prev") (w' := b!" ") (t := natDigits p) (u := b!">>") (r := z) (e := []) (e' := []) (e'' := []) .nil (nameText_plain _ (by decide)) (blank_of_white (by decide))
      (stops_of (by decide)) hprev (.nil (w := []) .nil))
    simpa [prevText, trailerOf] using this

/-! ### Bytes that do not occur -/

theorem digits_ne {n : Nat} {b : UInt8} (h : b ∈ natDigits n) : b.toNat < 58 := by
  obtain ⟨ds, h1, h2, -⟩ := natDigits_spec n
  rw [h1] at h
  obtain ⟨d, hd, rfl⟩ := List.mem_map.1 h
  have key : ∀ d < 10, (decDigit d).toNat < 58 := by decide
  exact key d (h2 d hd)

theorem padded_ne {k n : Nat} {b : UInt8} (h : b ∈ padded k n) : b.toNat < 58 := by
  rcases List.mem_append.1 h with h | h
  · rw [(List.mem_replicate.1 h).2]; decide
  · exact digits_ne h

theorem rows_ne {rs : List (Nat × Line)} {b : UInt8} (h : b ∈ rs.flatMap rowText) : b ≠ 120 ∧ b ≠ 106 := by
  obtain ⟨r, -, h⟩ := List.mem_flatMap.1 h
  have key : b.toNat < 58 ∨ b = 110 ∨ b = 102 := by
    simp only [rowText, List.mem_append] at h
    rcases h with h | h | h | h | h | h | h | h
    · exact .inl (digits_ne h)
    · left; clear * - h; revert b; decide
    · exact .inl (padded_ne h)
    · left; clear * - h; revert b; decide
    · exact .inl (padded_ne h)
    · left; clear * - h; revert b; decide
    · right; split at h <;> simp at h <;> simp [h]
    · left; clear * - h; revert b; decide
  constructor <;> rintro rfl <;> revert key <;> decide

theorem prev_ne {prev : Option Nat} {b : UInt8} (h : b ∈ prevText prev) : b ≠ 120 ∧ b ≠ 106 := by
  cases prev with
  | none => cases h
  | some p =>
    rcases List.mem_append.1 h with h | h
    · clear * - h; revert b; decide
    · have := digits_ne h
      constructor <;> rintro rfl <;> revert this <;> decide

/-- What is between the two words `xref` of an edit. -/
def middle (root pos : Nat) (prev : Option Nat) (e : Edit) : Bytes :=
  b!"\n" ++ ((e.rows pos).flatMap rowText ++ (b!"trailer\n<</Root " ++ (natDigits root ++ (b!" 0 R" ++ (prevText prev ++ b!">>\nstart")))))

/-- What is after them. -/
def ending (pos : Nat) (e : Edit) : Bytes := b!"\n" ++ (natDigits (pos + (objectsText e.puts).length) ++ b!"\n%%EOF\n")

theorem digits_ne' {n : Nat} {b : UInt8} (h : b ∈ natDigits n) : b ≠ 120 ∧ b ≠ 106 := by
  have := digits_ne h
  constructor <;> rintro rfl <;> revert this <;> decide

theorem middle_ne {root pos : Nat} {prev : Option Nat} {e : Edit} {b : UInt8} (h : b ∈ middle root pos prev e) : b ≠ 120 ∧ b ≠ 106 := by
  simp only [middle, List.mem_append] at h
  rcases h with h | h | h | h | h | h | h
  · revert b; decide
  · exact rows_ne h
  · revert b; decide
  · exact digits_ne' h
  · revert b; decide
  · exact prev_ne h
  · revert b; decide

theorem ending_ne {pos : Nat} {e : Edit} {b : UInt8} (h : b ∈ ending pos e) : b ≠ 120 ∧ b ≠ 106 := by
  simp only [ending, List.mem_append] at h
  rcases h with h | h | h
  · revert b; decide
  · exact digits_ne' h
  · revert b; decide

theorem text_words (root pos : Nat) (prev : Option Nat) (e : Edit) :
    e.text root pos prev = objectsText e.puts ++ (b!"xref" ++ (middle root pos prev e ++ (b!"xref" ++ ending pos e))) := by
  rw [Edit.text, Edit.table, middle, ending]
  simp

theorem tail_words (root pos : Nat) (prev : Option Nat) (e : Edit) :
    (updateBy μ root pos prev e).tail = b!"xref" ++ (middle root pos prev e ++ (b!"xref" ++ ending pos e)) := by
  have h := text_words root pos prev e
  rw [← updateBy_text (μ := μ), Update.text] at h
  have : joined (updateBy μ root pos prev e).parts = objectsText e.puts := joined_pieces _
  rw [this] at h
  exact List.append_cancel_left h

theorem tail_lacks (root pos : Nat) (prev : Option Nat) (e : Edit) : Lacks b!"obj" (updateBy μ root pos prev e).tail := by
  intro a b h
  have hm : (106 : UInt8) ∈ (updateBy μ root pos prev e).tail := by rw [h]; simp
  rw [tail_words] at hm
  simp only [List.mem_append] at hm
  rcases hm with h | h | h | h
  · revert h; decide
  · exact (middle_ne h).2 rfl
  · revert h; decide
  · exact (ending_ne h).2 rfl

/-- The word `xref` after itself. -/
theorem occ_word {B x y : Bytes} (h : b!"xref" ++ B = x ++ (b!"xref" ++ y)) : x = [] ∨ ∃ x', x = b!"xref" ++ x' ∧ B = x' ++ (b!"xref" ++ y) := by
  match x with
  | [] => exact .inl rfl
  | [_] => simp at h
  | [_, _] => simp at h
  | [_, _, _] => simp at h
  | a :: b :: c :: d :: x' =>
    simp only [List.cons_append, List.nil_append, List.cons.injEq] at h
    obtain ⟨rfl, rfl, rfl, rfl, h⟩ := h
    exact .inr ⟨x', rfl, h⟩

theorem objects_lacks {os : List IndObj} (h : ∀ o ∈ os, Lacks b!"xref" o.toBytes) : Lacks b!"xref" (objectsText os) := by
  induction os with
  | nil => exact lacks_nil (by decide)
  | cons o os ih =>
    rw [objectsText, List.flatMap_cons]
    have := lacks_nl (h o (by simp)) (ih fun o ho => h o (by simp [ho])) (by decide) (by decide)
    rw [List.append_assoc]
    exact this

theorem updates_words (root : Nat) : ∀ (es : List Edit), (∀ e ∈ es, e.Stored) → ∀ (pos : Nat) (prev : Option Nat) (a b : Bytes), editsText root pos prev es = a ++ (b!"xref" ++ b) →
    pos + a.length ∈ xrefWords pos (updatesBy μ root pos prev es) := by
  intro es
  induction es with
  | nil => intro _ pos prev a b h; exact absurd h.symm (by simp [editsText])
  | cons e es ih =>
    intro he pos prev a b h
    have hw := he e (by simp)
    rw [editsText] at h
    obtain ⟨T, hT⟩ : ∃ T, T = editsText root (pos + (e.text root pos prev).length) (some (pos + (objectsText e.puts).length)) es := ⟨_, rfl⟩
    rw [← hT, text_words] at h
    rw [updatesBy, xrefWords]
    have hpl : (updateBy μ root pos prev e).place pos = pos + (objectsText e.puts).length := updateBy_place ..
    have hword : (updateBy μ root pos prev e).word pos = pos + (objectsText e.puts ++ (b!"xref" ++ middle root pos prev e)).length := by
      rw [Update.word]
      have e1 : joined (updateBy μ root pos prev e).parts = objectsText e.puts := joined_pieces _
      have e2 : (updateBy μ root pos prev e).sect.text ++ b!"start" = b!"xref" ++ middle root pos prev e := by
        rw [updateBy, Sect.text, Edit.table, middle]; simp
      rw [e1, e2]
    simp only [List.append_assoc] at h
    obtain ⟨x, rfl, h1⟩ := occ_right (objects_lacks fun o ho => (hw.objects o ho).2.2.2) (by rintro b t ⟨⟩; decide) h
    rcases occ_word h1 with rfl | ⟨x', rfl, h2⟩
    · simp [hpl]
    obtain ⟨x, rfl, h3⟩ := occ_right (lacks_of (lit := b!"ref") fun hm => (middle_ne hm).1 rfl) (by rintro b t ⟨⟩; decide) h2
    rcases occ_word h3 with rfl | ⟨x', rfl, h4⟩
    · simp [hword]
    obtain ⟨x, rfl, h5⟩ := occ_after (A := ending pos e) (lacks_of (lit := b!"ref") fun hm => (ending_ne hm).1 rfl) (by simp [ending]) (by
      intro a c hc
      have : ending pos e = (b!"\n" ++ (natDigits (pos + (objectsText e.puts).length) ++ b!"\n%%EOF")) ++ [10] := by simp [ending]
      rw [this] at hc
      have := (List.append_inj' hc rfl).2
      cases this; decide) (by decide) h4
    refine List.mem_cons_of_mem _ (List.mem_cons_of_mem _ ?_)
    rw [hT] at h5
    have := ih (fun e he' => he e (by simp [he'])) _ _ _ _ h5
    rw [updateBy_text]
    have e3 : pos + (objectsText e.puts ++ (b!"xref" ++ (middle root pos prev e ++ (b!"xref" ++ (ending pos e ++ x))))).length = pos + (e.text root pos prev).length + x.length := by
      rw [text_words]; simp only [List.length_append]; omega
    rw [e3]
    exact this

/-! ### The document -/

theorem lastFor_trailer (root : Nat) (prev : Option Nat) (k : Bytes) : (dictOf (trailerOf root prev)).get? k =
    if k = b!"Prev" then prev.map fun p => .num (intNum false p) else if k = b!"Root" then some (.ref root 0) else none := by
  rw [dictOf_get]
  cases prev with
  | none =>
    simp only [trailerOf, lastFor, List.reverse_cons, List.reverse_nil, List.nil_append, Option.map_none]
    by_cases h : k = b!"Root"
    · subst h; rfl
    · simp [h, Ne.symm h]
  | some p =>
    simp only [trailerOf, lastFor, List.reverse_cons, List.reverse_nil, List.nil_append, List.cons_append, Option.map_some]
    by_cases h' : k = b!"Prev"
    · subst h'; rfl
    · by_cases h : k = b!"Root"
      · subst h; rfl
      · simp only [h, h', if_false]
        rw [List.find?_cons_of_neg (by simpa using fun e => h' e.symm), List.find?_cons_of_neg (by simpa using fun e => h e.symm)]
        rfl

theorem updateBy_at {cd : Codecs} {root pos : Nat} {prev : Option Nat} {e : Edit} (he : e.Stored) (hμ : ∀ o ∈ e.puts, Decoded cd (reread o) (μ o)) (hr : root < 2 ^ 53) (hp : ∀ p, prev = some p → p < 2 ^ 53)
    (hpos : pos + (objectsText e.puts).length < 2 ^ 53) (hfit : (e.table pos).length % 4096 ≠ 4095) : UpdateAt cd (fun _ => False) pos prev (updateBy μ root pos prev e) b!"\n" where
  parts := by
    intro p hp
    obtain ⟨o, ho, rfl⟩ := List.mem_map.1 hp
    exact ⟨_, (he.objects o ho).1.raw, hμ o ho⟩
  sect := by
    refine .table rfl ?_ (table_rows (rows_small he (by omega))) ⟨_, rfl⟩ hfit fun z => trailerOf_text hr hp z
    intro p hp
    obtain ⟨o, ho, rfl⟩ := List.mem_map.1 hp
    intro d hd
    exact (he.objects o ho).2.1 d ((Keeps.value (μ := μ) o).symm.trans hd)
  back := by
    obtain ⟨ds, h1, h2, h3, h4, -⟩ := natDigits_spec (pos + (objectsText e.puts).length)
    have := BackText.mk (w := b!"\n") (w' := b!"\n") (r := b!"\n") (ds := ds) (by decide) (by decide) h3 h2 (by decide)
    rw [h4, ← h1] at this
    refine ⟨_, this, .inl (updateBy_place ..).symm⟩
  word := tail_lacks root pos prev e
  hasPrev := by
    rintro p rfl
    refine .inl ⟨intNum false p, ?_, .inl (toInt_intNum (hp p rfl))⟩
    have := lastFor_trailer root (some p) b!"Prev"
    rw [if_pos rfl] at this
    exact this
  noPrev := by
    rintro rfl
    have := lastFor_trailer root none b!"Prev"
    rw [if_pos rfl] at this
    exact this
  first := by
    intro _ p hp d hd
    have : (updateBy μ root pos prev e).parts.head? = (e.puts.head?).map fun o => ⟨μ o, [], o.toBytes ++ b!"\n"⟩ := by
      show (piecesBy μ e.puts).head? = _
      rw [piecesBy, List.head?_map]
    rw [this] at hp
    obtain ⟨o, ho, rfl⟩ := Option.map_eq_some_iff.1 hp
    exact (he.first o ho d ((Keeps.value (μ := μ) o).symm.trans hd)).1

theorem back_short {root pos : Nat} {prev : Option Nat} {e : Edit} (h : pos + (objectsText e.puts).length < 2 ^ 53) : (updateBy μ root pos prev e).back.length ≤ 256 := by
  have := natDigits_len (n := pos + (objectsText e.puts).length) (by omega)
  show (b!"startxref\n" ++ (natDigits (pos + (objectsText e.puts).length) ++ b!"\n%%EOF\n")).length ≤ 256
  simp only [List.length_append, List.length_cons, List.length_nil]
  omega

theorem updates_ok {cd : Codecs} {root : Nat} (hr : root < 2 ^ 53) : ∀ (es : List Edit), es ≠ [] → (∀ e ∈ es, e.Stored) → (∀ e ∈ es, ∀ o ∈ e.puts, Decoded cd (reread o) (μ o)) → ∀ (pos : Nat) (prev : Option Nat), (∀ p, prev = some p → p < 2 ^ 53) →
    TablesFit root pos prev es → pos + (editsText root pos prev es).length < 2 ^ 53 → Updates cd (fun _ => False) pos prev (updatesBy μ root pos prev es) := by
  intro es
  induction es with
  | nil => intro h; exact absurd rfl h
  | cons e es ih =>
    intro _ he hμ pos prev hp hfit hlen
    rw [editsText, List.length_append] at hlen
    have h1 : pos + (objectsText e.puts).length < 2 ^ 53 := by
      have := congrArg List.length (text_words root pos prev e)
      rw [List.length_append] at this
      omega
    have hat := updateBy_at (cd := cd) (he e (by simp)) (hμ e (by simp)) hr hp h1 hfit.1
    rw [updatesBy]
    cases es with
    | nil => exact .last hat (back_short h1)
    | cons e' es =>
      refine .cons hat (.inl (by decide)) ?_
      rw [updateBy_text, updateBy_place]
      exact ih (by simp) (fun e he' => he e (by simp [he'])) (fun e he' => hμ e (by simp [he'])) _ _ (by rintro p ⟨⟩; exact h1) hfit.2 (by omega)

theorem updatesBy_linear (root pos : Nat) (es : List Edit) : linear (updatesBy μ root pos none es) = false := by
  cases es with
  | nil => rfl
  | cons e es =>
    rw [updatesBy]
    cases es with
    | nil => rfl
    | cons e' es =>
      rw [updatesBy, linear]
      show ((dictOf (trailerOf root none)).get? b!"Prev").isSome = false
      rw [lastFor_trailer, if_pos rfl]
      rfl

theorem _root_.Pdf.Spec.Begins.ne {es : List Edit} (h : Begins es) : es ≠ [] := by
  obtain ⟨e, rest, rfl, -⟩ := h
  simp

/-- The file is a document. -/
theorem stored_document {cd : Codecs} {root : Nat} {es : List Edit} (hr : root < 2 ^ 53) (hne : Begins es) (he : ∀ e ∈ es, e.Stored) (hμ : ∀ e ∈ es, ∀ o ∈ e.puts, Decoded cd (reread o) (μ o)) (hfit : TablesFit root 9 none es) (hlen : (fileText root es).length < 2 ^ 53) :
    Document cd docHead (updatesBy μ root 9 none es) where
  sections := .linked (updates_ok hr es hne.ne he hμ 9 none (by rintro p ⟨⟩) hfit (by rw [fileText, List.length_append] at hlen; exact hlen))
  nonempty := by
    obtain ⟨e, rest, rfl, h⟩ := hne
    rintro u ⟨⟩
    intro hp
    exact h (List.map_eq_nil_iff.1 hp)
  head := lacks_dec (by decide)
  start := by
    intro a b h
    have := (List.append_inj' (show b!"%PDF-1.4" ++ b!"\n" = a ++ [b] from h) rfl).2
    cases this
    unfold IsDec; decide
  noOpen := noOpen_dec (by decide)
  words := by
    intro a b h
    rw [docText, updatesBy_text] at h
    obtain ⟨x, rfl, h1⟩ := occ_after (A := docHead) (lacks_dec (by decide)) (by decide) (by
      intro a b h
      have := (List.append_inj' (show b!"%PDF-1.4" ++ b!"\n" = a ++ [b] from h) rfl).2
      cases this; decide) (by decide) h
    have := updates_words (μ := μ) root es he 9 none x b h1
    rw [List.length_append]
    exact this
  short := by rw [docText_updatesBy]; omega

/-! ### What the tables say -/

theorem listed_rows (rs : List (Nat × Line)) : listed (rowSubs rs) = rs.map fun r => ((r.1 : Int), r.2.entry) := by
  rw [listed, rowSubs, List.flatMap_map]
  induction rs with
  | nil => rfl
  | cons r rs ih => rw [List.flatMap_cons, ih]; rfl

/-- The entry for an object at a place. -/
def placeEntry (q : Nat × Part) : XrefEntry := ⟨q.1, q.2.obj.generation, 1, true, false⟩

theorem put_entries {os : List IndObj} (h : ∀ o ∈ os, Storable o) : ∀ pos, ((putRows pos os).map fun r => ((r.1 : Int), r.2.entry)) =
    (placedParts pos (piecesBy μ os)).map fun q => (q.2.obj.number, placeEntry q) := by
  induction os with
  | nil => intro pos; rfl
  | cons o os ih =>
    intro pos
    have h1 := (h o (by simp)).number
    have h2 := (h o (by simp)).generation
    rw [putRows, piecesBy, List.map_cons, List.map_cons, placedParts, List.map_cons, ← piecesBy, ih fun o ho => h o (by simp [ho])]
    congr 1
    show ((o.number.toNat : Int), (⟨(pos : Nat), (o.generation.toNat : Int), 1, true, false⟩ : XrefEntry)) = ((μ o).number, ⟨pos, (μ o).generation, 1, true, false⟩)
    rw [Keeps.number, Keeps.generation, Int.toNat_of_nonneg h1.1, Int.toNat_of_nonneg h2.1]

theorem lastFor_placed (l : List (Nat × Part)) (n : Int) : lastFor (l.map fun q => (q.2.obj.number, placeEntry q)) n = (lastPlaced l n).map placeEntry := by
  rw [lastFor, lastPlaced, ← List.map_reverse, List.find?_map, Option.map_map]
  rfl

theorem storedEdit_entries {root pos : Nat} {prev : Option Nat} {e : Edit} (he : e.Stored) (n : Int) :
    lastFor (updateBy μ root pos prev e).sect.entries n = ((lastPlaced (placedParts pos (piecesBy μ e.puts)) n).map placeEntry).or (if n ∈ e.frees.map Int.ofNat then some ⟨0, 65535, 0, true, false⟩ else none) := by
  show lastFor (listed (rowSubs (e.rows pos))) n = _
  rw [listed_rows, Edit.rows, List.map_append, lastFor_append, put_entries (μ := μ) fun o ho => (he.objects o ho).1, lastFor_placed]
  congr 1
  rw [List.map_map]
  generalize e.frees = fs
  split
  · rename_i h
    cases hl : lastFor (fs.map ((fun r : Nat × Line => ((r.1 : Int), r.2.entry)) ∘ fun n => (n, ⟨0, 65535, false⟩))) n with
    | none =>
      rw [lastFor_none] at hl
      exfalso
      apply hl
      rw [List.map_map]
      exact h
    | some x =>
      obtain ⟨y, hy, rfl⟩ := Option.map_eq_some_iff.1 hl
      obtain ⟨m, -, rfl⟩ := List.mem_map.1 (List.mem_reverse.1 (List.mem_of_find?_eq_some hy))
      rfl
  · rename_i h
    rw [lastFor_none, List.map_map]
    exact h

theorem storedEdit_right {file : Bytes} {root pos : Nat} {prev : Option Nat} {e : Edit} (he : e.Stored) : RightTable file (placedParts pos (updateBy μ root pos prev e).parts) (updateBy μ root pos prev e).sect.entries where
  inUse := by
    intro n x hx ht
    rw [storedEdit_entries he] at hx
    show ∃ q, lastPlaced (placedParts pos (piecesBy μ e.puts)) n = some q ∧ _
    cases hq : lastPlaced (placedParts pos (piecesBy μ e.puts)) n with
    | none =>
      rw [hq] at hx
      simp only [Option.map_none, Option.none_or] at hx
      split at hx
      · cases hx; cases ht
      · cases hx
    | some q =>
      rw [hq] at hx
      cases hx
      exact ⟨q, rfl, ⟨q.1, rfl, .inl rfl⟩, rfl⟩
  all := by
    intro q hq
    rw [storedEdit_entries he]
    replace hq : q ∈ placedParts pos (piecesBy μ e.puts) := hq
    cases hp : lastPlaced (placedParts pos (piecesBy μ e.puts)) q.2.obj.number with
    | none =>
      rw [lastPlaced, List.find?_eq_none] at hp
      have := hp q (List.mem_reverse.2 hq)
      simp at this
    | some q' => exact ⟨_, rfl, rfl⟩

theorem stored_right {file : Bytes} {root : Nat} : ∀ (es : List Edit), (∀ e ∈ es, e.Stored) → ∀ (pos : Nat) (prev : Option Nat), RightUpdates file pos (updatesBy μ root pos prev es) := by
  intro es
  induction es with
  | nil => intros; trivial
  | cons e es ih =>
    intro he pos prev
    refine ⟨storedEdit_right (he e (by simp)), ?_⟩
    rw [updateBy_text]
    exact ih (fun e he' => he e (by simp [he'])) _ _

/-! ### What the file means -/

/-- An object as part of the file. -/
def pieceBy (μ : IndObj → IndObj) (o : IndObj) : Part := ⟨μ o, [], o.toBytes ++ b!"\n"⟩

theorem lastWith_pieces (os : List IndObj) (n : Int) : lastWith (piecesBy μ os) n = (os.reverse.find? fun o => o.number = n).map (pieceBy μ) := by
  rw [lastWith, piecesBy, ← List.map_reverse, List.find?_map]
  have : ((fun p : Part => decide (p.obj.number = n)) ∘ fun o => (⟨μ o, [], o.toBytes ++ b!"\n"⟩ : Part)) = fun o => decide (o.number = n) := by
    funext o
    simp [Keeps.number]
  rw [this]
  rfl

theorem stored_meant {root : Nat} (n : Int) : ∀ (es : List Edit), (∀ e ∈ es, e.Stored) → ∀ (pos : Nat) (prev : Option Nat) (m : Int → Option IndObj),
    (lastFor (((updatesBy μ root pos prev es).map Update.revision).flatMap (·.entries)) n ≠ none → meantIn ((updatesBy μ root pos prev es).map Update.revision) n = (es.foldl Edit.apply m n).map (pieceBy μ)) ∧
    (lastFor (((updatesBy μ root pos prev es).map Update.revision).flatMap (·.entries)) n = none → es.foldl Edit.apply m n = m n) := by
  intro es
  induction es with
  | nil => intro _ pos prev m; exact ⟨fun h => absurd rfl h, fun _ => rfl⟩
  | cons e es ih =>
    intro he pos prev m
    obtain ⟨h1, h2⟩ := ih (fun e he' => he e (by simp [he'])) (pos + (e.text root pos prev).length) (some (pos + (objectsText e.puts).length)) (Edit.apply m e)
    rw [updatesBy, List.map_cons, List.flatMap_cons, lastFor_append, List.foldl_cons]
    generalize hR : (updatesBy μ root (pos + (e.text root pos prev).length) (some (pos + (objectsText e.puts).length)) es).map Update.revision = R at h1 h2 ⊢
    cases hl : lastFor (R.flatMap (·.entries)) n with
    | some x =>
      rw [meant_old (by rw [hl]; simp), h1 (by rw [hl]; simp)]
      exact ⟨fun _ => rfl, fun h => by cases h⟩
    | none =>
      rw [h2 hl, meant_new hl, Option.none_or]
      have e1 : (updateBy μ root pos prev e).revision.entries = (updateBy μ root pos prev e).sect.entries := rfl
      have e2 : (updateBy μ root pos prev e).revision.parts = piecesBy μ e.puts := rfl
      have e3 := lastPlaced_parts (piecesBy μ e.puts) pos n
      rw [lastWith_pieces] at e3
      rw [e1, e2, storedEdit_entries (he e (by simp)), lastWith_pieces, Edit.apply]
      cases hp : e.puts.reverse.find? fun o => o.number = n with
      | some o =>
        rw [hp] at e3
        obtain ⟨q, hq, -⟩ := Option.map_eq_some_iff.1 e3
        rw [hq]
        simp [placeEntry]
      | none =>
        rw [hp] at e3
        rw [Option.map_none, Option.map_eq_none_iff] at e3
        rw [e3]
        by_cases hf : n ∈ e.frees.map Int.ofNat
        · simp [hf]
        · simp [hf]

theorem stored_means {root : Nat} {es : List Edit} (he : ∀ e ∈ es, e.Stored) (n : Int) : meant (updatesBy μ root 9 none es) n = (after es n).map (pieceBy μ) := by
  rw [meant_eq, revisions_plain (updatesBy_linear root 9 es), after]
  obtain ⟨h1, h2⟩ := stored_meant (μ := μ) (root := root) n es he 9 none fun _ => none
  by_cases h : lastFor (((updatesBy μ root 9 none es).map Update.revision).flatMap (·.entries)) n = none
  · rw [h2 h, meantIn, lists_none.2 h]
    rfl
  · exact h1 h

/-! ### Reading the file back -/

theorem stored_trailer {root : Nat} {k : Bytes} (hk : k ≠ b!"Prev") (es : List Edit) (hne : es ≠ []) (pos : Nat) : trailerFor (updatesBy μ root pos none es) k = if k = b!"Root" then some (.ref root 0) else none := by
  rw [trailerFor_plain (updatesBy_linear root pos es)]
  have key : ∀ (es : List Edit) (pos : Nat) (prev : Option Nat), lastFor ((updatesBy μ root pos prev es).flatMap fun u => u.sect.trailer) k = if es ≠ [] ∧ k = b!"Root" then some (.ref root 0) else none := by
    intro es
    induction es with
    | nil => intros; simp [updatesBy, lastFor]
    | cons e es ih =>
      intro pos prev
      rw [updatesBy, List.flatMap_cons, lastFor_append, ih]
      have : lastFor (updateBy μ root pos prev e).sect.trailer k = if k = b!"Root" then some (.ref root 0) else none := by
        have := lastFor_trailer root prev k
        rw [dictOf_get, if_neg hk] at this
        exact this
      rw [this]
      by_cases h : k = b!"Root"
      · by_cases h' : es = [] <;> simp [h, h']
      · simp [h]
  have := key es pos none
  simpa [hne, trailFor] using this

theorem stored_first {root : Nat} : ∀ (es : List Edit), (∀ e ∈ es, e.Stored) → ∀ (pos : Nat) (prev : Option Nat) (d : Dict), FirstDict (updatesBy μ root pos prev es) d → d.get? b!"Encrypt" = none := by
  intro es
  induction es with
  | nil => rintro _ pos prev d ⟨v, hv, -⟩; cases hv
  | cons e es ih =>
    rintro he pos prev d ⟨v, hv, p, hp, hd⟩
    rw [updatesBy] at hv
    rcases List.mem_cons.1 hv with rfl | hv
    · have : (updateBy μ root pos prev e).parts.head? = (e.puts.head?).map (pieceBy μ) := by
        show (piecesBy μ e.puts).head? = _
        rw [piecesBy, List.head?_map]; rfl
      rw [this] at hp
      obtain ⟨o, ho, rfl⟩ := Option.map_eq_some_iff.1 hp
      exact ((he e (by simp)).first o ho d ((Keeps.value (μ := μ) o).symm.trans hd)).2
    · exact ih (fun e he' => he e (by simp [he'])) _ _ d ⟨v, hv, p, hp, hd⟩

theorem stored_first_tail {root : Nat} {es : List Edit} (he : ∀ e ∈ es, e.Stored) (d : Dict) (h : FirstDict (updatesBy μ root 9 none es).tail d) : d.get? b!"Encrypt" = none := by
  obtain ⟨v, hv, h⟩ := h
  exact stored_first es he 9 none d ⟨v, List.mem_of_mem_tail hv, h⟩

theorem updatesBy_length (root : Nat) : ∀ (es : List Edit) (pos : Nat) (prev : Option Nat), (updatesBy μ root pos prev es).length = es.length := by
  intro es
  induction es with
  | nil => intros; rfl
  | cons e es ih => intro pos prev; rw [updatesBy, List.length_cons, ih, List.length_cons]

/-! ### Objects without filters -/

theorem _root_.Pdf.Spec.Edit.Writable.stored {e : Edit} (h : e.Writable) : e.Stored :=
  ⟨fun o ho => let ⟨h1, h2⟩ := h.objects o ho; ⟨h1.storable, h2⟩, h.frees, h.first⟩

theorem _root_.Pdf.Spec.Reprintable.decoded {o : IndObj} (h : Reprintable o) (cd : Codecs) : Decoded cd (reread o) (reread o) := by
  obtain ⟨n, g, v, st⟩ := o
  cases st with
  | none => exact .value
  | some d =>
    obtain ⟨D, rfl, k1, k2, k3, -⟩ := h.stream d rfl
    exact Decoded.stream (.none k1) (.none k2) k3 (by simp) (fun rs => rfl)

/-- An object as part of the file. -/
abbrev pieceOf (o : IndObj) : Part := ⟨reread o, [], o.toBytes ++ b!"\n"⟩

/-- Edits as updates. -/
abbrev updatesOf (root : Nat) : Nat → Option Nat → List Edit → List Update := updatesBy reread root

theorem docText_updates (root : Nat) (es : List Edit) : docText docHead (updatesOf root 9 none es) = fileText root es := docText_updatesBy root es

theorem updatesOf_linear (root pos : Nat) (es : List Edit) : linear (updatesOf root pos none es) = false := updatesBy_linear root pos es

theorem updatesOf_length (root : Nat) (es : List Edit) (pos : Nat) (prev : Option Nat) : (updatesOf root pos prev es).length = es.length := updatesBy_length root es pos prev

theorem edits_document {cd : Codecs} {root : Nat} {es : List Edit} (hr : root < 2 ^ 53) (hne : Begins es) (he : ∀ e ∈ es, e.Writable) (hfit : TablesFit root 9 none es) (hlen : (fileText root es).length < 2 ^ 53) :
    Document cd docHead (updatesOf root 9 none es) := stored_document hr hne (fun e h => (he e h).stored) (fun e h o ho => ((he e h).objects o ho).1.decoded cd) hfit hlen

theorem edits_right {file : Bytes} {root : Nat} (es : List Edit) (he : ∀ e ∈ es, e.Writable) (pos : Nat) (prev : Option Nat) : RightUpdates file pos (updatesOf root pos prev es) :=
  stored_right es (fun e h => (he e h).stored) pos prev

theorem edits_means {root : Nat} {es : List Edit} (he : ∀ e ∈ es, e.Writable) (n : Int) : meant (updatesOf root 9 none es) n = (after es n).map pieceOf := stored_means (fun e h => (he e h).stored) n

theorem edits_trailer {root : Nat} {k : Bytes} (hk : k ≠ b!"Prev") (es : List Edit) (hne : es ≠ []) (pos : Nat) : trailerFor (updatesOf root pos none es) k = if k = b!"Root" then some (.ref root 0) else none :=
  stored_trailer hk es hne pos

theorem edits_first_tail {root : Nat} {es : List Edit} (he : ∀ e ∈ es, e.Writable) (d : Dict) (h : FirstDict (updatesOf root 9 none es).tail d) : d.get? b!"Encrypt" = none :=
  stored_first_tail (fun e h => (he e h).stored) d h

section
variable {root : Nat} {es : List Edit} {ext : Ext} (hr : root < 2 ^ 53) (hne : Begins es) (he : ∀ e ∈ es, e.Writable) (hfit : TablesFit root 9 none es) (hlen : (fileText root es).length < 2 ^ 53)
include hr hne he hfit hlen

/-- **C85, partial** A file written as a history of edits is loaded without an error, and every number is read as what it is after the last edit: the
object (except for a carriage return at the end of a stream's data), or null when there is none. The trailer has the /Root that was written. Missing: tables that
end at the end of the reader's buffer (C55); edits whose first object has a key /Prev or /Encrypt (`C74_false`). -/
theorem C85_partial (verbose : Option Bool) (ord : Order) (f fx : Nat) (hfx : es.length ≤ fx) (pw : Bytes) :
    ∃ ls, load ⟨fileText root es, ext, verbose⟩ ord (f + 1) fx pw LS.init = .ok (none, ls) ∧ ls.trailer.get? b!"Root" = some (.ref root 0) ∧
      (∀ n o, after es n = some o → ∀ f' s, ∃ s', getObject (ls.env ⟨fileText root es, ext, verbose⟩) f' n s = .ok (reread o, s') ∧ s'.log = s.log) ∧
      (∀ n, after es n = none → ∀ f' s, getObject (ls.env ⟨fileText root es, ext, verbose⟩) f' n s = .ok (⟨n, 0, .null, none⟩, s)) := by
  have hd := edits_document (cd := ext.toCodecs) hr hne he hfit hlen
  have hR : RightTables (docText docHead (updatesOf root 9 none es)) docHead.length (updatesOf root 9 none es) := (rightTables_plain (updatesOf_linear root 9 es)).2 (edits_right es he _ _)
  have henc : trailerFor (updatesOf root 9 none es) b!"Encrypt" = none := edits_trailer (by decide) es hne.ne 9
  have hfx' : (updatesOf root 9 none es).length ≤ fx := by rw [updatesOf_length]; exact hfx
  obtain ⟨ls', h1, h2, h3⟩ := C74_meant_partial hd hR henc (edits_first_tail he) verbose ord f fx hfx' pw
  obtain ⟨ls, g1, g2, -⟩ := C74_read_partial hd henc (edits_first_tail he) verbose ord f fx hfx' pw
  obtain rfl : ls' = ls := by
    rw [g1] at h1
    simp only [Res.ok.injEq, Prod.mk.injEq, true_and] at h1
    exact h1.symm
  rw [docText_updates] at *
  refine ⟨ls', g1, g2 _ _ (edits_trailer (by decide) es hne.ne 9), fun n o ho f' s => ?_, fun n hn => ?_⟩
  · obtain ⟨s', k1, k2⟩ := h2 n (pieceOf o) (by rw [edits_means he, ho]; rfl) f' s
    exact ⟨s', k1, by rw [k2]; simp [pieceOf]⟩
  · exact h3 n (by rw [edits_means he, hn]; rfl)

/-- **C85, partial** `Parse` returns without an error on such a file, and raw.pdf has every object that there is after the last edit, with the entries of its
dictionaries in some order. Missing: as for `C85_partial` and `C75_partial`. -/
theorem C85_report_partial {sys : Sys} {v : Bool} (hf : sys.input = some (fileText root es)) (hc : ∀ h, sys.canCreate h = true)
    (hk : ∀ n o, after es n = some o → ∀ d ∈ dictsIn o.value, ∀ m g, d.get? b!"Kids" ≠ some (.ref m g)) (hs : ∀ n o, after es n = some o → ∀ data, (reread o).stream = some data → ∃ font, newFont data = .ok font) (pw : Bytes) :
    ∃ r F, (∀ f fx ft, F ≤ f → F ≤ fx → F ≤ ft → parse sys ext (some v) f fx ft pw = r) ∧ r.outcome = .returned none ∧
      ∀ n o, after es n = some o → ∃ x a b, Reordered o.value x ∧ r.out.raw = a ++ ((withValue (reread o) x).toBytes ++ b!"\n" ++ b) := by
  have hd := edits_document (cd := ext.toCodecs) hr hne he hfit hlen
  have hR : RightTables (docText docHead (updatesOf root 9 none es)) docHead.length (updatesOf root 9 none es) := (rightTables_plain (updatesOf_linear root 9 es)).2 (edits_right es he _ _)
  have henc : trailerFor (updatesOf root 9 none es) b!"Encrypt" = none := edits_trailer (by decide) es hne.ne 9
  obtain ⟨r, F, h1, h2, h3⟩ := C75_partial (v := v) (by rw [docText_updates]; exact hf) hc hd hR henc (edits_first_tail he) (by
    refine KidsInPlace.ends fun n p hp => ?_
    rw [edits_means he] at hp
    obtain ⟨o, ho, rfl⟩ := Option.map_eq_some_iff.1 hp
    exact hk n o ho) (by
    intro n p hp
    rw [edits_means he] at hp
    obtain ⟨o, ho, rfl⟩ := Option.map_eq_some_iff.1 hp
    exact hs n o ho) pw
  refine ⟨r, F, h1, h2, fun n o ho => ?_⟩
  obtain ⟨view, hv, -⟩ := C75_means (updatesOf root 9 none es)
  obtain ⟨l, ws, -, g1, g2, parts, g3, g4, g5⟩ := h3 view hv
  have hm : meant (updatesOf root 9 none es) n = some (pieceOf o) := by rw [edits_means he, ho]; rfl
  obtain ⟨y, hy, rfl⟩ := List.mem_map.1 (g3.mem_iff.2 ((g1 n).2 (by rw [hm]; rfl)))
  obtain ⟨p, k1, inside, x, -, k2, k3⟩ := g4 y hy
  rw [hm] at k1
  cases k1
  have hw : Write.raw (pieceOf o).obj x ∈ ws := by
    apply visible_sub
    rw [g5]
    exact List.mem_flatMap.2 ⟨y, hy, by rw [k3]; simp⟩
  obtain ⟨a, b, e⟩ := flatMap_has hw Write.rawPdf
  exact ⟨x, a, b, k2, by rw [g2.raw, e]; rfl⟩

end

/-! ### A document in two edits -/

/-- The second content of the page: in font F, code 0. -/
def codeShown : Bytes := b!"BT /F 1 Tf (\x00) Tj ET"

/-- A document with one page, and then a new content for the page. -/
def pageEdits : List Edit := [
  ⟨[⟨1, 0, .dict [(b!"Type", .name b!"Catalog"), (b!"Pages", .ref 2 0)], none⟩,
    ⟨2, 0, .dict [(b!"Kids", .arr [.ref 3 0])], none⟩,
    ⟨3, 0, .dict [(b!"Contents", .ref 4 0), (b!"Resources", .dict [(b!"Font", .dict [(b!"F", .ref 5 0)])])], none⟩,
    ⟨4, 0, .dict [(b!"Length", .num (.fin 14))], some b!"BT [(A)] TJ ET"⟩,
    ⟨5, 0, .dict [(b!"ToUnicode", .ref 6 0)], none⟩,
    ⟨6, 0, .dict [(b!"Length", .num (.fin 40))], some twoCodes⟩,
    ⟨7, 0, .str b!"a", none⟩], [0]⟩,
  ⟨[⟨4, 0, .dict [(b!"Length", .num (.fin 22))], some codeShown⟩], [7]⟩]

theorem reprintable_dec {n : Int} {v : Obj} (hn : 0 ≤ n ∧ n < 2 ^ 63) (hp : Plain v) (hw : hasWord b!"obj" v.toBytes = false) : Reprintable ⟨n, 0, v, none⟩ :=
  ⟨hn, ⟨(Int.le_refl 0 : (0 : Int) ≤ 0), (by decide : (0 : Int) < 2 ^ 63)⟩, hp, (lacks_dec hw).noHeader, fun d h => by cases h⟩

theorem reprintable_stream {n k : Int} {data : Bytes} (hn : 0 ≤ n ∧ n < 2 ^ 63) (hp : Plain (.dict [(b!"Length", .num (.fin k))])) (hw : hasWord b!"obj" (Obj.dict [(b!"Length", .num (.fin k))]).toBytes = false)
    (hl : (Obj.dict [(b!"Length", .num (.fin k))]).toBytes.length ≤ 4000) (h1 : hasWord b!"obj" data = false) (h2 : hasWord endMark data = false) : Reprintable ⟨n, 0, .dict [(b!"Length", .num (.fin k))], some data⟩ :=
  ⟨hn, ⟨(Int.le_refl 0 : (0 : Int) ≤ 0), (by decide : (0 : Int) < 2 ^ 63)⟩, hp, (lacks_dec hw).noHeader, fun d h => by
    cases h
    exact ⟨_, rfl, rfl, rfl, (fun a b h => by cases h), hl, (lacks_dec h1).noHeader, lacks_dec h2⟩⟩

set_option maxRecDepth 100000 in
theorem pageEdits_writable : ∀ e ∈ pageEdits, e.Writable := by
  have key : ∀ e ∈ pageEdits, ∀ o ∈ e.puts, Reprintable o ∧ NotXref o := by
    intro e he o ho
    simp only [pageEdits, List.mem_cons, List.not_mem_nil, or_false] at he
    rcases he with rfl | rfl <;> simp only [List.mem_cons, List.not_mem_nil, or_false] at ho
    · rcases ho with rfl | rfl | rfl | rfl | rfl | rfl | rfl
      · exact ⟨reprintable_dec (by decide) (.dict (.cons (regular_all (by decide)) (.name (regular_all (by decide))) (.cons (regular_all (by decide)) (.ref (n := 2) (g := 0) (by decide) (by decide)) .nil)) (by decide)) (by decide +kernel), by rintro d ⟨⟩; decide⟩
      · exact ⟨reprintable_dec (by decide) (.dict (.cons (regular_all (by decide)) (.arr (.cons (.ref (n := 3) (g := 0) (by decide) (by decide)) .nil)) .nil) (by decide)) (by decide +kernel), by rintro d ⟨⟩; decide⟩
      · exact ⟨reprintable_dec (by decide) (.dict (.cons (regular_all (by decide)) (.ref (n := 4) (g := 0) (by decide) (by decide)) (.cons (regular_all (by decide)) (.dict (.cons (regular_all (by decide)) (.dict (.cons (regular_all (by decide)) (.ref (n := 5) (g := 0) (by decide) (by decide)) .nil) (by decide)) .nil) (by decide)) .nil)) (by decide)) (by decide +kernel), by rintro d ⟨⟩; decide⟩
      · exact ⟨reprintable_stream (by decide) (.dict (.cons (regular_all (by decide)) (.int (neg := false) (n := 14) (by decide)) .nil) (by decide)) (by decide +kernel) (by decide +kernel) (by decide +kernel) (by decide +kernel), by rintro d ⟨⟩; decide⟩
      · exact ⟨reprintable_dec (by decide) (.dict (.cons (regular_all (by decide)) (.ref (n := 6) (g := 0) (by decide) (by decide)) .nil) (by decide)) (by decide +kernel), by rintro d ⟨⟩; decide⟩
      · exact ⟨reprintable_stream (by decide) (.dict (.cons (regular_all (by decide)) (.int (neg := false) (n := 40) (by decide)) .nil) (by decide)) (by decide +kernel) (by decide +kernel) (by decide +kernel) (by decide +kernel), by rintro d ⟨⟩; decide⟩
      · exact ⟨reprintable_dec (by decide) (.str (plain_all (by decide))) (by decide +kernel), by rintro d ⟨⟩⟩
    · subst ho
      exact ⟨reprintable_stream (by decide) (.dict (.cons (regular_all (by decide)) (.int (neg := false) (n := 22) (by decide)) .nil) (by decide)) (by decide +kernel) (by decide +kernel) (by decide +kernel) (by decide +kernel), by rintro d ⟨⟩; decide⟩
  have hx : ∀ e ∈ pageEdits, ∀ o ∈ e.puts, o.number < 2 ^ 62 ∧ hasWord b!"xref" o.toBytes = false := by decide +kernel
  have hz : ∀ e ∈ pageEdits, ∀ n ∈ e.frees, n < 2 ^ 62 := by decide +kernel
  intro e he
  refine ⟨fun o ho => ⟨(key e he o ho).1, (key e he o ho).2, (hx e he o ho).1, lacks_dec (hx e he o ho).2⟩, hz e he, ?_⟩
  · simp only [pageEdits, List.mem_cons, List.not_mem_nil, or_false] at he
    rcases he with rfl | rfl <;> (rintro o ⟨⟩ d ⟨⟩; decide)

theorem pageEdits_begins : Begins pageEdits := ⟨_, _, rfl, by simp⟩

theorem pageEdits_fit : TablesFit 1 9 none pageEdits := by
  refine ⟨?_, ?_, trivial⟩ <;> decide +kernel

theorem pageEdits_length : (fileText 1 pageEdits).length < 2 ^ 53 := by decide +kernel

/-- The objects after the two edits. -/
theorem pageEdits_after {n : Int} {o : IndObj} (h : after pageEdits n = some o) :
    o ∈ ([⟨1, 0, .dict [(b!"Type", .name b!"Catalog"), (b!"Pages", .ref 2 0)], none⟩,
    ⟨2, 0, .dict [(b!"Kids", .arr [.ref 3 0])], none⟩,
    ⟨3, 0, .dict [(b!"Contents", .ref 4 0), (b!"Resources", .dict [(b!"Font", .dict [(b!"F", .ref 5 0)])])], none⟩,
    ⟨4, 0, .dict [(b!"Length", .num (.fin 22))], some codeShown⟩,
    ⟨5, 0, .dict [(b!"ToUnicode", .ref 6 0)], none⟩,
    ⟨6, 0, .dict [(b!"Length", .num (.fin 40))], some twoCodes⟩] : List IndObj) := by
  have hn : n ∈ ([1, 2, 3, 4, 5, 6] : List Int) := by
    by_contra hn
    simp only [List.mem_cons, List.not_mem_nil, or_false, not_or] at hn
    obtain ⟨h1, h2, h3, h4, h5, h6⟩ := hn
    have e : ∀ m k : Int, ¬ n = m → (m = n) = False := fun m k h => by simp [eq_comm, h]
    by_cases h7 : n = 7
    · subst h7
      cases (show after pageEdits 7 = none from rfl).symm.trans h
    · simp [after, pageEdits, Edit.apply, e _ 0 h1, e _ 0 h2, e _ 0 h3, e _ 0 h4, e _ 0 h5, e _ 0 h6, e _ 0 h7] at h
  simp only [List.mem_cons, List.not_mem_nil, or_false] at hn
  rcases hn with rfl | rfl | rfl | rfl | rfl | rfl <;>
  · simp [after, pageEdits, Edit.apply] at h
    subst h
    simp

/-- The file of the two edits is read as it stands after the second. -/
example (ext : Ext) (verbose : Option Bool) (ord : Order) (pw : Bytes) : ∃ ls, load ⟨fileText 1 pageEdits, ext, verbose⟩ ord 1 2 pw LS.init = .ok (none, ls) ∧
    ∀ s, (∃ s', getObject (ls.env ⟨fileText 1 pageEdits, ext, verbose⟩) 0 4 s = .ok (⟨4, 0, .dict [(b!"Length", .num (.fin 22))], some codeShown⟩, s')) ∧
      getObject (ls.env ⟨fileText 1 pageEdits, ext, verbose⟩) 0 7 s = .ok (⟨7, 0, .null, none⟩, s) := by
  obtain ⟨ls, h1, -, h2, h3⟩ := C85_partial (ext := ext) (root := 1) (by decide) pageEdits_begins pageEdits_writable pageEdits_fit pageEdits_length verbose ord 0 2 (by decide) pw
  exact ⟨ls, h1, fun s => ⟨let ⟨s', h, _⟩ := h2 4 _ rfl 0 s; ⟨s', h⟩, h3 7 rfl 0 s⟩⟩

/-- A third edit that only frees a number. -/
def freeEdits : List Edit := pageEdits ++ [⟨[], [5]⟩]

/-- The number that only was freed has no object any more. -/
example (ext : Ext) (verbose : Option Bool) (ord : Order) (pw : Bytes) : ∃ ls, load ⟨fileText 1 freeEdits, ext, verbose⟩ ord 1 3 pw LS.init = .ok (none, ls) ∧
    ∀ s, (∃ s', getObject (ls.env ⟨fileText 1 freeEdits, ext, verbose⟩) 0 4 s = .ok (⟨4, 0, .dict [(b!"Length", .num (.fin 22))], some codeShown⟩, s')) ∧
      getObject (ls.env ⟨fileText 1 freeEdits, ext, verbose⟩) 0 5 s = .ok (⟨5, 0, .null, none⟩, s) := by
  have hw : ∀ e ∈ freeEdits, e.Writable := by
    intro e he
    rcases List.mem_append.1 he with he | he
    · exact pageEdits_writable e he
    · cases List.mem_singleton.1 he
      exact ⟨(fun o h => by cases h), (fun n h => by cases List.mem_singleton.1 h; decide), (fun o h => by cases h)⟩
  obtain ⟨ls, h1, -, h2, h3⟩ := C85_partial (ext := ext) (root := 1) (es := freeEdits) (by decide) ⟨_, _, rfl, by simp⟩ hw ⟨by decide +kernel, by decide +kernel, by decide +kernel, trivial⟩
    (by decide +kernel) verbose ord 0 3 (by decide) pw
  exact ⟨ls, h1, fun s => ⟨let ⟨s', h, _⟩ := h2 4 _ rfl 0 s; ⟨s', h⟩, h3 5 rfl 0 s⟩⟩

theorem pageEdits_streams : ∀ n o, after pageEdits n = some o → ∀ data, (reread o).stream = some data → ∃ font, newFont data = .ok font := by
  intro n o ho data hd
  have h1 : newFont codeShown = .ok ⟨[], 1⟩ := by decide +kernel
  have h2 : newFont twoCodes = .ok ⟨[(0, 1, b!"A")], 1⟩ := by decide +kernel
  have := pageEdits_after ho
  simp only [List.mem_cons, List.not_mem_nil, or_false] at this
  rcases this with rfl | rfl | rfl | rfl | rfl | rfl <;> cases hd
  · exact ⟨_, h1⟩
  · exact ⟨_, h2⟩

theorem pageEdits_kids : ∀ n o, after pageEdits n = some o → ∀ d ∈ dictsIn o.value, ∀ m g, d.get? b!"Kids" ≠ some (.ref m g) := by
  intro n o ho
  have key : ∀ o ∈ ([⟨1, 0, .dict [(b!"Type", .name b!"Catalog"), (b!"Pages", .ref 2 0)], none⟩,
    ⟨2, 0, .dict [(b!"Kids", .arr [.ref 3 0])], none⟩,
    ⟨3, 0, .dict [(b!"Contents", .ref 4 0), (b!"Resources", .dict [(b!"Font", .dict [(b!"F", .ref 5 0)])])], none⟩,
    ⟨4, 0, .dict [(b!"Length", .num (.fin 22))], some codeShown⟩,
    ⟨5, 0, .dict [(b!"ToUnicode", .ref 6 0)], none⟩,
    ⟨6, 0, .dict [(b!"Length", .num (.fin 40))], some twoCodes⟩] : List IndObj), ∀ d ∈ dictsIn o.value, (match d.get? b!"Kids" with | some (.ref _ _) => false | _ => true) = true := by decide +kernel
  intro d hd m g h
  have := key o (pageEdits_after ho) d hd
  rw [h] at this
  cases this

/-- raw.pdf of the file of the two edits has the second content. -/
example (sys : Sys) (ext : Ext) (hf : sys.input = some (fileText 1 pageEdits)) (hc : ∀ h, sys.canCreate h = true) (pw : Bytes) :
    ∃ r F, (∀ f fx ft, F ≤ f → F ≤ fx → F ≤ ft → parse sys ext (some true) f fx ft pw = r) ∧ r.outcome = .returned none ∧
      ∃ x a b, Reordered (.dict [(b!"Length", .num (.fin 22))]) x ∧ r.out.raw = a ++ ((⟨4, 0, x, some codeShown⟩ : IndObj).toBytes ++ b!"\n" ++ b) := by
  obtain ⟨r, F, h1, h2, h3⟩ := C85_report_partial (ext := ext) (root := 1) (by decide) pageEdits_begins pageEdits_writable pageEdits_fit pageEdits_length (v := true) hf hc pageEdits_kids pageEdits_streams pw
  exact ⟨r, F, h1, h2, h3 4 _ rfl⟩

/-- What references stand for after the last edit, when no object is a reference itself. -/
theorem edits_view {root : Nat} {es : List Edit} (he : ∀ e ∈ es, e.Writable) (hn : ∀ n o, after es n = some o → ∀ m g, o.value ≠ .ref m g) :
    Means (updatesOf root 9 none es) ⟨fun n => ((after es n).map (·.value)).getD .null, fun n => (after es n).bind fun o => (reread o).stream⟩ := by
  intro n
  have hm := edits_means (root := root) he n
  dsimp only
  cases ha : after es n with
  | none => rw [ha] at hm; exact .free (by simp) hm
  | some o => rw [ha] at hm; exact .stop (p := pieceOf o) (by simp) hm (hn n o ha)

end Pdf.Props
