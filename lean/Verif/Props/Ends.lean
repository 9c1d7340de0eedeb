import Verif.Lemmas.Deeper
import Verif.Lemmas.RunsExample
import Verif.Lemmas.Verbose
import Verif.Model.Concrete
/-!
Calls of `Parse` that return (C51, C70), and the flag `-v` (C69).
-/

namespace Pdf.Props
open Spec St

/-! ### C51, C70 -/

/-- **C51, C70** for a program that sets `pdf.Verbose`, on a file that contains nothing that can keep the
program from returning (`Tame`, `MapsEnd`): whatever the password, the call returns, without an error if the
file is not encrypted, and what it reports does not depend on the bounds the model puts on the depth of
recursion, if these are large enough.
Missing: programs that do not set the flag crash (`C51_false`); files in which a filter, a
kid list or the widths of a cross reference stream are given by reference, where the call need not return
(`C70_false`); character maps that never end (`C44_terminates_false`); encryption dictionaries that crash the program
(`C40_short_U_false`, `C40_filter_length_false`). -/
theorem C51_partial {sys : Sys} {file : Bytes} (hf : sys.input = some file) (hc : ∀ h, sys.canCreate h = true) {ext : Ext} {v : Bool} (password : Bytes)
    (hcd : Moderate ext.toCodecs) (ht : Tame file) (hm : MapsEnd file ext (some v) password) (hlen : file.length < 2 ^ 63) :
    ∃ r e F, r.outcome = .returned e ∧ (Unencrypted file → e = none) ∧ ∀ f fx ft, F ≤ f → F ≤ fx → F ≤ ft → parse sys ext (some v) f fx ft password = r := by
  obtain ⟨e, xs, F, h, he⟩ := parseBody_returns (cfg := ⟨file, ext, some v⟩) hcd ht.file (by simp) hlen sys.order password hm
  have hok : (createAll sys outputFiles []).2.2 = true := by simp [outputFiles, createAll, hc]
  refine ⟨⟨.returned e, [.openInput, .removeAll, .mkdirAll] ++ (createAll sys outputFiles []).1 ++ closeAll (createAll sys outputFiles []).2.1 ++ [.close .input], xs.out, xs.ps.log⟩, e, F, rfl, he, ?_⟩
  intro f fx ft h1 h2 h3
  rw [parse, hf]
  simp only [hok, if_true]
  rw [h f fx ft h1 h2 h3]

/-- **C70** on the same files: the call returns, with one and the same result for all bounds on the depth
of recursion that are large enough. Missing: as for `C51_partial`. -/
theorem C70_partial {sys : Sys} {file : Bytes} (hf : sys.input = some file) (hc : ∀ h, sys.canCreate h = true) {ext : Ext} {v : Bool} (password : Bytes)
    (hcd : Moderate ext.toCodecs) (ht : Tame file) (hm : MapsEnd file ext (some v) password) (hlen : file.length < 2 ^ 63) :
    ∃ e F, ∀ f fx ft, F ≤ f → F ≤ fx → F ≤ ft → (parse sys ext (some v) f fx ft password).outcome = .returned e := by
  obtain ⟨r, e, F, h1, -, h2⟩ := C51_partial hf hc password hcd ht hm hlen
  exact ⟨e, F, fun f fx ft a b c => by rw [h2 f fx ft a b c, h1]⟩

/-- **C70** Whatever the file: once a call returns or crashes within some bounds on the depth of recursion, it does the same
within all larger bounds. The bounds of the model are not part of the result. -/
theorem C70_bounds (sys : Sys) (ext : Ext) (verbose : Option Bool) {f f' fx fx' ft ft' : Nat} (hf : f ≤ f') (hx : fx ≤ fx') (ht : ft ≤ ft') (password : Bytes)
    (h : (parse sys ext verbose f fx ft password).outcome ≠ .diverged) : parse sys ext verbose f' fx' ft' password = parse sys ext verbose f fx ft password :=
  parse_deeper sys ext verbose hf hx ht password h

/-- A file with a page, its text, and a script. -/
def tameFile : Bytes := b!"1 0 obj<</Type/Catalog/Pages 2 0 R>>endobj 2 0 obj<</Kids[3 0 R]>>endobj 3 0 obj<</Parent 2 0 R/Contents 4 0 R>>endobj 5 0 obj<</JS(x)>>endobj 4 0 obj<<>>stream\nBT(Hi)Tj ET\nendstream endobj"

/-- External functions whose output is short. -/
def shortExt : Ext := { Concrete.ext with zlib := fun _ => none, lzw := fun _ d => (d.take 1000, false) }

theorem shortExt_moderate : Moderate shortExt.toCodecs := ⟨fun d out e h => (by cases h), fun b d => (by
  show (d.take 1000).length < _
  rw [List.length_take]
  omega)⟩

set_option maxRecDepth 100000 in
example (password : Bytes) : Tame tameFile ∧ MapsEnd tameFile shortExt (some true) password ∧ tameFile.length < 2 ^ 63 ∧ Unencrypted tameFile := by
  have h1 : allPlain tameFile = true := by decide +kernel
  have h2 : streamsPlain tameFile = true := by decide +kernel
  exact ⟨tame_of_all h1, mapsEnd_of_all h1 h2 shortExt_moderate _ (by decide) _, by decide, unencrypted_of_all h1⟩

/-- The hypothesis of `C70_bounds`, for the same files. -/
example {sys : Sys} {file : Bytes} (hf : sys.input = some file) (hc : ∀ h, sys.canCreate h = true) {ext : Ext} {v : Bool} (password : Bytes)
    (hcd : Moderate ext.toCodecs) (ht : Tame file) (hm : MapsEnd file ext (some v) password) (hlen : file.length < 2 ^ 63) :
    ∃ F, (parse sys ext (some v) F F F password).outcome ≠ .diverged := by
  obtain ⟨e, F, h⟩ := C70_partial hf hc password hcd ht hm hlen
  exact ⟨F, by rw [h F F F (Nat.le_refl _) (Nat.le_refl _) (Nat.le_refl _)]; simp⟩

/-- **C70 fails**: `Parse` never returns on a file whose cross reference stream gives itself as its filter. -/
theorem C70_false (ext : Ext) (v : Bool) (password : Bytes) : ∃ file, ∀ (sys : Sys) (f fx ft : Nat), sys.input = some file → (∀ h, sys.canCreate h = true) →
    (parse sys ext (some v) f fx ft password).outcome = .diverged := by
  refine ⟨selfXref, fun sys f fx ft hf hc => ?_⟩
  have hok : (createAll sys outputFiles []).2.2 = true := by simp [outputFiles, createAll, hc]
  have hb : parseBody selfXref sys.order ext (some v) f fx ft password = .oof := by
    rw [parseBody_verbose selfXref ext v false f]
    obtain ⟨ps, objs, hp⟩ := selfXref_plan (cfg := ⟨selfXref, ext, some false⟩) rfl (fun env => resolver env f)
    have hl : load ⟨selfXref, ext, some false⟩ sys.order f fx password LS.init = .oof := by
      rw [load, loadF, bind_of_ok hp]
      refine bind_of_oof ?_
      exact bind_of_oof (selfXref_load ext f _ rfl rfl)
    rw [parseBody, hl]
    rfl
  rw [parse, hf]
  simp only [hok, if_true]
  rw [hb]

example : (Sys.mk (some selfXref) (fun _ => true) false default).input = some selfXref := rfl

/-! ### C69 -/

/-- **C69** The flag `-v` has no effect on the outcome of a call, on the calls it makes to the file system,
or on anything it writes into the output directory. -/
theorem C69_verbose (sys : Sys) (ext : Ext) (a b : Bool) (f fx ft : Nat) (password : Bytes) :
    parse sys ext (some a) f fx ft password = parse sys ext (some b) f fx ft password := by
  rw [parse, parse]
  cases sys.input with
  | none => rfl
  | some file => simp only [parseBody_verbose file ext a b f]

/-- **C69** for the program: two runs that differ in `-v` only do the same. -/
theorem C69_program (sys : Sys) (ext : Ext) (v : Bool) (f fx ft : Nat) (args : Args) :
    mainProgram sys ext f fx ft { args with verbose := v } = mainProgram sys ext f fx ft args := by
  simp only [mainProgram, C69_verbose sys ext v args.verbose]

end Pdf.Props
