import Verif.Props.Load
import Verif.Props.Layout
import Verif.Lemmas.Writable
/-!
Concrete cross reference streams for C24 and C60.
-/

namespace Pdf.Props
open Pdf Spec

/-- A cross reference stream with one entry, for the number 3. -/
def rowStream : IndObj := ⟨7, 0, .dict [(b!"W", .arr [.num (.fin (1 : Nat)), .num (.fin (1 : Nat)), .num (.fin (1 : Nat))]), (b!"Index", .arr [.num (.fin (3 : Nat)), .num (.fin (1 : Nat))])], some [1, 5, 0]⟩

/-- The same without a column for the type. -/
def shortStream : IndObj := ⟨7, 0, .dict [(b!"W", .arr [.num (.fin (0 : Nat)), .num (.fin (1 : Nat)), .num (.fin (1 : Nat))]), (b!"Index", .arr [.num (.fin (3 : Nat)), .num (.fin (1 : Nat))])], some [5, 0]⟩

/-- A file that begins with the text of the object is read as the object. -/
theorem stream_first {o : IndObj} (h : writableObjB o = true) (h7 : o.number = 7) (xref : Assoc Int XrefEntry) (ps : PS) (f : Nat) :
    ∃ ps', getObject ⟨o.toBytes ++ b!"\n", xref.set 7 ⟨0, 0, 1, false, false⟩, newSecurityHandler, Concrete.ext, some false⟩ f 7 ps =
      .ok (withGeneration (reread o) 0, ps') := by
  have ht := (writableObj_of_check h).1.text Concrete.ext.toCodecs
  obtain ⟨s', k, -⟩ := getObject_plain (env := ⟨o.toBytes ++ b!"\n", xref.set 7 ⟨0, 0, 1, false, false⟩, newSecurityHandler, Concrete.ext, some false⟩) ht (e := ⟨0, 0, 1, false, false⟩) (R := []) (.inl rfl)
    ⟨by rw [show (reread o).number = 7 from h7]; exact Assoc.get?_set_self .., rfl, Int.le_refl 0, by rw [List.append_nil]; rfl⟩ f ps
  rw [show (reread o).number = 7 from h7] at k
  exact ⟨s', k⟩

/-- The hypotheses of `C24_stream`: after loading, the number 3 is in use at offset 5. -/
example : ∃ seen s', loadXref ⟨rowStream.toBytes ++ b!"\n", Concrete.ext, some false⟩ (fun env => getObject env 2) (fun env => resolver env 2) 1 0 [] LS.init = .ok (seen, s') ∧
    s'.xref.get? 3 = some ⟨5, 0, 1, true, false⟩ := by
  obtain ⟨s1, -, -, -, k1, k2⟩ := C24_stream ⟨rowStream.toBytes ++ b!"\n", Concrete.ext, some false⟩ (fun env => getObject env 2) (fun env => resolver env 2) (off := 0) (seen := []) LS.init
    (ds := [7]) (gs := [0]) (h := b!"7 0 obj") (r := (rowStream.toBytes ++ b!"\n").drop 7)
    (.mk (w := []) (w1 := [32]) (w2 := [32]) .nil (by decide) (by decide) (.ws (by decide) .nil) (by decide) (by decide) (by decide) (.ws (by decide) .nil))
    (by intro b u hb; rw [show (rowStream.toBytes ++ b!"\n").drop 7 = 10 :: (rowStream.toBytes ++ b!"\n").drop 8 by decide +kernel] at hb; cases hb; decide)
    (by decide +kernel) (by decide) (by decide) (fun ps => stream_first (o := rowStream) (by decide +kernel) rfl LS.init.xref ps 2) (by decide)
    (ss := [(3, [⟨1, 5, 0⟩])]) (w0 := 1) (w1 := 1) (w2 := 1) (more := []) (extra := []) (.inl rfl) rfl (by decide) (by decide) (by decide)
    (by simp [Fits]) (by decide) (by simp) 0 (.absent rfl)
  obtain ⟨s', h1⟩ := k1 _ _ .none
  refine ⟨_, s', h1, ?_⟩
  obtain ⟨s2, -, h2, -⟩ := k2 _ _ h1
  rw [h2, if_neg (by decide)]
  rfl

/-- The hypotheses of `C60_zero`: the number 3 gets type 0. -/
example : ∃ seen s', loadXref ⟨shortStream.toBytes ++ b!"\n", Concrete.ext, some false⟩ (fun env => getObject env 2) (fun env => resolver env 2) 1 0 [] LS.init = .ok (seen, s') ∧
    ∃ x, s'.xref.get? 3 = some x ∧ x.typ = 0 := by
  have hh : HeaderText [7] [0] b!"7 0 obj" := .mk (w := []) (w1 := [32]) (w2 := [32]) .nil (by decide) (by decide) (.ws (by decide) .nil) (by decide) (by decide) (by decide) (.ws (by decide) .nil)
  have hs : Stops ((shortStream.toBytes ++ b!"\n").drop 7) := by
    intro b u hb
    rw [show (shortStream.toBytes ++ b!"\n").drop 7 = 10 :: (shortStream.toBytes ++ b!"\n").drop 8 by decide +kernel] at hb
    cases hb
    decide
  have hfit : ∀ p ∈ ([(3, [⟨0, 5, 0⟩])] : List (Nat × List Field)), p.1 + p.2.length < 2 ^ 53 ∧ ∀ f ∈ p.2, Fits 0 1 1 f := by simp [Fits]
  obtain ⟨s1, -, -, -, k1, -⟩ := C24_stream ⟨shortStream.toBytes ++ b!"\n", Concrete.ext, some false⟩ (fun env => getObject env 2) (fun env => resolver env 2) (off := 0) (seen := []) LS.init
    (ds := [7]) (gs := [0]) (h := b!"7 0 obj") (r := (shortStream.toBytes ++ b!"\n").drop 7) hh hs
    (by decide +kernel) (by decide) (by decide) (fun ps => stream_first (o := shortStream) (by decide +kernel) rfl LS.init.xref ps 2) (by decide)
    (ss := [(3, [⟨0, 5, 0⟩])]) (w0 := 0) (w1 := 1) (w2 := 1) (more := []) (extra := []) (.inl rfl) rfl (by decide) (by decide) (by decide) hfit (by decide) (by simp) 0 (.absent rfl)
  obtain ⟨s', h1⟩ := k1 _ _ .none
  exact ⟨_, s', h1, C60_zero ⟨shortStream.toBytes ++ b!"\n", Concrete.ext, some false⟩ (fun env => getObject env 2) (fun env => resolver env 2) (off := 0) (seen := []) LS.init hh hs
    (by decide +kernel) (by decide) (by decide) (fun ps => stream_first (o := shortStream) (by decide +kernel) rfl LS.init.xref ps 2) (by decide)
    (ss := [(3, [⟨0, 5, 0⟩])]) (w1 := 1) (w2 := 1) (more := []) (extra := []) (.inl rfl) rfl (by decide) (by decide) hfit (by decide) (by simp) 0 (.absent rfl) h1 (by decide) ⟨_, rfl⟩⟩

end Pdf.Props
