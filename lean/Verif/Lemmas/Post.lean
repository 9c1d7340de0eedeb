import Verif.Lemmas.Assoc
import Verif.Lemmas.Out
import Verif.Lemmas.LogEq
import Verif.Spec.Extract
/-!
What runs of the extraction write.
-/

namespace Pdf
open St Spec

theorem Spec.Wrote.refl (s : XS) : Wrote [] s s := by constructor <;> simp

theorem Spec.Wrote.trans {ws vs : List Write} {s t u : XS} (h1 : Wrote ws s t) (h2 : Wrote vs t u) : Wrote (ws ++ vs) s u := by
  constructor
  · rw [h2.commands, h1.commands]; simp
  · rw [h2.files, h1.files]; simp
  · rw [h2.javascript, h1.javascript]; simp
  · rw [h2.text, h1.text]; simp
  · rw [h2.urls, h1.urls]; simp
  · rw [h2.raw, h1.raw]; simp
  · rw [h2.errors, h1.errors]; simp
  · rw [h2.dumped, h1.dumped]; simp

/-- Every run that returns writes a sequence that satisfies `Q`. -/
def Post {α : Type} (x : X α) (Q : α → List Write → Prop) : Prop :=
  ∀ s a s', x s = .ok (a, s') → ∃ ws, Wrote ws s s' ∧ Q a ws

theorem Post.mono {α : Type} {x : X α} {Q Q' : α → List Write → Prop} (h : Post x Q) (hq : ∀ a ws, Q a ws → Q' a ws) : Post x Q' := by
  intro s a s' hr
  obtain ⟨ws, h1, h2⟩ := h s a s' hr
  exact ⟨ws, h1, hq a ws h2⟩

theorem Post.pure {α : Type} {Q : α → List Write → Prop} {a : α} (h : Q a []) : Post (pure a : X α) Q := by
  intro s b s' hr
  cases hr
  exact ⟨[], .refl s, h⟩

theorem Post.bind {α β : Type} {x : X α} {k : α → X β} {P : α → List Write → Prop} {Q : β → List Write → Prop}
    (hx : Post x P) (hk : ∀ a ws, P a ws → Post (k a) fun b vs => Q b (ws ++ vs)) : Post (x >>= k) Q := by
  intro s b s' hr
  obtain ⟨a, t, h1, h2⟩ := bind_ok hr
  obtain ⟨ws, hw, hp⟩ := hx s a t h1
  obtain ⟨vs, hv, hq⟩ := hk a ws hp t b s' h2
  exact ⟨ws ++ vs, hw.trans hv, hq⟩

theorem Post.ofRes {α : Type} {Q : α → List Write → Prop} {x : Res α} (h : ∀ a, x = .ok a → Q a []) : Post (St.ofRes x : X α) Q := by
  intro s b s' hr
  cases x with
  | ok a => cases hr; exact ⟨[], .refl s, h _ rfl⟩
  | panic w => cases hr
  | oof => cases hr

theorem LogFree.grows {α : Type} {x : M α} (h : LogFree x) {s s' : PS} {a : α} (hr : x s = .ok (a, s')) :
    ∃ es, s'.log = s.log ++ es := by
  have h1 := h s.log { s with log := [] }
  have h2 : addLog s.log { s with log := [] } = s := by simp [addLog]
  rw [h2, hr] at h1
  cases hx : x { s with log := [] } with
  | ok p =>
    rw [hx] at h1
    cases h1
    exact ⟨p.2.log, rfl⟩
  | panic w => rw [hx] at h1; cases h1
  | oof => rw [hx] at h1; cases h1

/-- Only messages. -/
def Quiet (ws : List Write) : Prop := ∀ w ∈ ws, w.kind = .errors

theorem Post.liftX {α : Type} {x : M α} (hl : LogFree x) :
    Post (liftX x) fun a ws => Quiet ws ∧ ∀ b, Reads x b → a = b := by
  intro s a s' hr
  rw [Pdf.liftX] at hr
  cases hx : x s.ps with
  | ok p =>
    rw [hx] at hr
    cases hr
    obtain ⟨es, he⟩ := hl.grows (a := p.1) (s' := p.2) hx
    refine ⟨es.map .error, ?_, ?_, fun b hb => hb _ _ _ hx⟩
    · have h : ∀ (f : Write → Bytes), (∀ e, f (.error e) = []) → (es.map Write.error).flatMap f = [] := by
        intro f hf
        rw [List.flatMap_eq_nil_iff]
        intro w hw
        obtain ⟨e, -, rfl⟩ := List.mem_map.1 hw
        exact hf e
      constructor
      · rw [h _ (fun _ => rfl)]; simp
      · rw [h _ (fun _ => rfl)]; simp
      · rw [h _ (fun _ => rfl)]; simp
      · rw [h _ (fun _ => rfl)]; simp
      · rw [h _ (fun _ => rfl)]; simp
      · rw [h _ (fun _ => rfl)]; simp
      · show p.2.log = _
        rw [he]
        congr 1
        clear he hx h
        induction es with
        | nil => rfl
        | cons e t ih => rw [List.map_cons, List.flatMap_cons, ← ih]; rfl
      · show s.out.dumped = _
        generalize s.out.dumped = m
        clear he hx h
        induction es with
        | nil => rfl
        | cons e t ih => exact ih
    · intro w hw
      obtain ⟨e, -, rfl⟩ := List.mem_map.1 hw
      rfl
  | panic w => rw [hx] at hr; cases hr
  | oof => rw [hx] at hr; cases hr

theorem Post.shuffle {α : Type} (l : List α) : Post (shuffle l) fun l' ws => ws = [] ∧ l'.Perm l := by
  intro s a s' hr
  rw [Pdf.shuffle] at hr
  cases hr
  refine ⟨[], ?_, rfl, shuffled l (s.order.perm 0 _)⟩
  constructor <;> simp

theorem Post.putJs (b : Bytes) : Post (putJs b) fun _ ws => ws = [.js b] := by
  intro s a s' hr; cases hr
  exact ⟨_, by constructor <;> simp [Write.commandsTxt, Write.filesTxt, Write.javascriptJs, Write.contentsTxt, Write.urlsTxt, Write.rawPdf, Write.errorsTxt, Write.dumpInto], rfl⟩
theorem Post.putUrl (b : Bytes) : Post (putUrl b) fun _ ws => ws = [.url b] := by
  intro s a s' hr; cases hr
  exact ⟨_, by constructor <;> simp [Write.commandsTxt, Write.filesTxt, Write.javascriptJs, Write.contentsTxt, Write.urlsTxt, Write.rawPdf, Write.errorsTxt, Write.dumpInto], rfl⟩
theorem Post.putFile (h n : Bytes) : Post (putFile h n) fun _ ws => ws = [.file h n] := by
  intro s a s' hr; cases hr
  exact ⟨_, by constructor <;> simp [Write.commandsTxt, Write.filesTxt, Write.javascriptJs, Write.contentsTxt, Write.urlsTxt, Write.rawPdf, Write.errorsTxt, Write.dumpInto, manifestLine], rfl⟩
theorem Post.putCommand (f p : Bytes) : Post (putCommand f p) fun _ ws => ws = [.command f p] := by
  intro s a s' hr; cases hr
  exact ⟨_, by constructor <;> simp [Write.commandsTxt, Write.filesTxt, Write.javascriptJs, Write.contentsTxt, Write.urlsTxt, Write.rawPdf, Write.errorsTxt, Write.dumpInto], rfl⟩
theorem Post.putText (b : Bytes) : Post (putText b) fun _ ws => ws = [.text b] := by
  intro s a s' hr; cases hr
  exact ⟨_, by constructor <;> simp [Write.commandsTxt, Write.filesTxt, Write.javascriptJs, Write.contentsTxt, Write.urlsTxt, Write.rawPdf, Write.errorsTxt, Write.dumpInto], rfl⟩
mutual
theorem reorder_reordered (ord : Order) : ∀ o, Reordered o (reorder ord o).1
  | .arr l => .arr (reorderList_reordered ord l)
  | .dict d => .dict (reorderEntries_reordered ord d) (shuffled _ ((reorderEntries ord d).2.perm 0 _)).symm
  | .kw _ => .same _
  | .num _ => .same _
  | .name _ => .same _
  | .str _ => .same _
  | .ref _ _ => .same _
theorem reorderList_reordered (ord : Order) : ∀ l, ReorderedList l (reorderList ord l).1
  | [] => .nil
  | o :: t => .cons (reorder_reordered ord o) (reorderList_reordered _ t)
theorem reorderEntries_reordered (ord : Order) : ∀ d, ReorderedEntries d (reorderEntries ord d).1
  | [] => .nil
  | (_, v) :: t => .cons (reorder_reordered ord v) (reorderEntries_reordered _ t)
end

theorem Post.putRaw (o : IndObj) : Post (putRaw o) fun _ ws => ∃ v, Reordered o.value v ∧ ws = [.raw o v] := by
  intro s a s' hr; cases hr
  exact ⟨[.raw o (reorder s.order o.value).1], by constructor <;> simp [Write.commandsTxt, Write.filesTxt, Write.javascriptJs, Write.contentsTxt, Write.urlsTxt, Write.rawPdf, Write.errorsTxt, Write.dumpInto],
    _, reorder_reordered _ _, rfl⟩
theorem Post.dumpFile (ext : Ext) (n d : Bytes) : Post (dumpFile ext n d) fun _ ws => ws = [.file (hexEncode (ext.md5 d)) n, .dump (hexEncode (ext.md5 d)) d] := by
  intro s a s' hr; cases hr
  exact ⟨_, by constructor <;> simp [Write.commandsTxt, Write.filesTxt, Write.javascriptJs, Write.contentsTxt, Write.urlsTxt, Write.rawPdf, Write.errorsTxt, Write.dumpInto, manifestLine], rfl⟩

end Pdf
