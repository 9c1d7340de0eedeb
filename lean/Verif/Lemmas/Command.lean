import Verif.Spec.Text
import Verif.Props.Parser
/-!
`ReadCommand` (parser.go:605-618).
-/

namespace Pdf
open Spec

theorem noDec_total : ∀ b, ∃ d, noDec b = .ok d := fun b => ⟨b, rfl⟩

/-- `ReadCommand` returns; unless it fails to read, it makes progress. -/
theorem readCommandLoop_total (file : Bytes) : ∀ (f : Nat) (s : PS) (os : List Obj), file.length - s.pos < f →
    ∃ k os' err s', readCommandLoop file f s os = .ok ((k, os', err), s') ∧ s.pos ≤ s'.pos ∧ s'.pos ≤ max s.pos file.length ∧
      (err ≠ .readError → s.pos < s'.pos) ∧ (err = .readError → file.length ≤ s'.pos ∧ k = b!"null")
  | 0, s, os, h => by omega
  | f + 1, s, os, h => by
    obtain ⟨o, err, s', h1, h2, h3, h4, h5⟩ := Props.C01_object_total noDec_total file s
    rw [readCommandLoop, h1]
    show ∃ k os' err' s'', (if err ≠ .nil then _ else _) = _ ∧ _
    by_cases he : err = .nil
    · rw [if_neg (by simpa using he)]
      have hp := h4 (by rw [he]; decide)
      have hrec := readCommandLoop_total file f s' (os ++ [o]) (by omega)
      obtain ⟨k, os', err', s'', g1, g2, g3, g4, g5⟩ := hrec
      cases o with
      | kw k => exact ⟨k, os, .nil, s', rfl, by omega, by omega, fun _ => hp, (fun h => by cases h)⟩
      | _ => exact ⟨k, os', err', s'', g1, by omega, by omega, (fun h => by have := g4 h; omega), g5⟩
    · rw [if_pos he]
      exact ⟨_, _, _, _, rfl, h2, h3, h4, fun h => ⟨(h5 h).1, rfl⟩⟩

theorem readCommand_total (file : Bytes) (s : PS) : ∃ k os' err s', readCommand file s = .ok ((k, os', err), s') ∧ s.pos ≤ s'.pos ∧
    s'.pos ≤ max s.pos file.length ∧ (err ≠ .readError → s.pos < s'.pos) ∧ (err = .readError → file.length ≤ s'.pos ∧ k = b!"null") :=
  readCommandLoop_total file _ s [] (by omega)

theorem cmdAt_pos {c : Cmd} {t r : Bytes} (h : CmdAt c t r) : t ≠ [] := by
  induction h with
  | op hw hk =>
    cases hk
    simp
  | arg hw ho hk hc ih => simp [ih]

/-- `ReadCommand` on a command. -/
theorem readCommandLoop_text {file : Bytes} : ∀ {c : Cmd} {t r : Bytes}, CmdAt c t r → ∀ (f : Nat) (s : PS) (os : List Obj), c.args.length < f →
    file.drop s.pos = t ++ r → ∃ s', readCommandLoop file f s os = .ok ((c.op, os ++ c.args, .nil), s') ∧ s'.pos = s.pos + t.length := by
  intro c t r h
  induction h with
  | @op w k r hw hk =>
    intro f s os hf hin
    obtain ⟨f, rfl⟩ : ∃ g, f = g + 1 := ⟨f - 1, by simp at hf; omega⟩
    obtain ⟨s', h1, h2, -⟩ := Props.C07_object_read hk hw file s (by rw [hin]; simp)
    rw [readCommandLoop, h1]
    exact ⟨s', by simp, by rw [h2]; simp; omega⟩
  | @arg w o t u k os' r e hw ho hk hc ih =>
    intro f s os hf hin
    obtain ⟨f, rfl⟩ : ∃ g, f = g + 1 := ⟨f - 1, by simp at hf; omega⟩
    obtain ⟨s', h1, h2, -⟩ := Props.C07_object_read ho hw file s (by rw [hin]; simp)
    obtain ⟨s'', g1, g2⟩ := ih f s' (os ++ [o]) (by simpa using hf) (by
      rw [h2, ← List.drop_drop, ← List.drop_drop, hin]; simp)
    rw [readCommandLoop, h1]
    refine ⟨s'', ?_, by rw [g2, h2]; simp; omega⟩
    rw [List.append_assoc] at g1
    cases o with
    | kw k => exact absurd rfl (hk k)
    | _ => exact g1

theorem objAt_ne {o : Obj} {t r : Bytes} {e : List Err} (h : ObjAt o t r e) : 0 < t.length := by
  obtain ⟨s', h1, h2, -⟩ := Props.C07_object_read h .nil (t ++ r) ⟨0, 0, false, []⟩ rfl
  obtain ⟨_, _, _, g1, -, -, g2, -⟩ := Props.C01_object_total noDec_total (t ++ r) ⟨0, 0, false, []⟩
  rw [h1] at g1
  cases g1
  have := g2 (by decide)
  rw [h2] at this
  simpa using this

theorem cmdAt_args {c : Cmd} {t r : Bytes} (h : CmdAt c t r) : c.args.length < t.length := by
  induction h with
  | op hw hk =>
    have := objAt_ne hk
    simp
    omega
  | @arg w o t u k os r e hw ho hk hc ih =>
    have := objAt_ne ho
    simp at ih ⊢
    omega

theorem readCommand_text {file : Bytes} {c : Cmd} {t r : Bytes} (h : CmdAt c t r) (s : PS) (hin : file.drop s.pos = t ++ r) :
    ∃ s', readCommand file s = .ok ((c.op, c.args, .nil), s') ∧ s'.pos = s.pos + t.length := by
  have h1 := cmdAt_args h
  have h2 := congrArg List.length hin
  simp at h2
  exact readCommandLoop_text h _ s [] (by omega) hin

end Pdf
