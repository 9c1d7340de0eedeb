import Verif.Lemmas.St
import Verif.Model.Extract
/-!
Every step of the extraction either moves the reader or performs one of six writes: relations on the
extraction state that hold for these hold for whole runs.
-/

namespace Pdf
open St

/-- `R` holds for every elementary step of the extraction. -/
structure OutRel (ext : Ext) (R : XS → XS → Prop) : Prop extends Pre R where
  read : ∀ s ps, R s { s with ps := ps }
  order : ∀ s o, R s { s with order := o }
  js : ∀ s b, R s { s with out := { s.out with javascript := s.out.javascript ++ b ++ b!"\n" } }
  url : ∀ s b, R s { s with out := { s.out with urls := s.out.urls ++ b ++ b!"\n" } }
  command : ∀ s f p, R s { s with out := { s.out with commands := s.out.commands ++ f ++ b!" " ++ p ++ b!"\n" } }
  text : ∀ s b, R s { s with out := { s.out with text := s.out.text ++ b } }
  raw : ∀ s b, R s { s with out := { s.out with raw := s.out.raw ++ b ++ b!"\n" } }
  file : ∀ s n, R s { s with out := { s.out with files := s.out.files ++ unknownHash ++ b!":" ++ n ++ b!"\n" } }
  dump : ∀ s n d, R s { s with out := { s.out with
    files := s.out.files ++ hexEncode (ext.md5 d) ++ b!":" ++ n ++ b!"\n"
    dumped := s.out.dumped.set (hexEncode (ext.md5 d)) d } }

variable {ext : Ext} {R : XS → XS → Prop}

theorem liftX_pres {α : Type} (h : OutRel ext R) (x : M α) : Pres R (liftX x) := by
  intro s a t hr
  rw [liftX] at hr
  cases hx : x s.ps with
  | ok p => rw [hx] at hr; cases hr; exact h.read s _
  | panic w => rw [hx] at hr; cases hr
  | oof => rw [hx] at hr; cases hr

theorem shuffle_pres {α : Type} (h : OutRel ext R) (l : List α) : Pres R (shuffle l) := by
  intro s a t hr
  rw [shuffle] at hr
  cases hr
  exact h.order s _

theorem putJs_pres (h : OutRel ext R) (b : Bytes) : Pres R (putJs b) := by
  intro s a t hr; cases hr; exact h.js s b
theorem putUrl_pres (h : OutRel ext R) (b : Bytes) : Pres R (putUrl b) := by
  intro s a t hr; cases hr; exact h.url s b
theorem putCommand_pres (h : OutRel ext R) (f p : Bytes) : Pres R (putCommand f p) := by
  intro s a t hr; cases hr; exact h.command s f p
theorem putText_pres (h : OutRel ext R) (b : Bytes) : Pres R (putText b) := by
  intro s a t hr; cases hr; exact h.text s b
theorem putRaw_pres (h : OutRel ext R) (o : IndObj) : Pres R (putRaw o) := by
  intro s a t hr; cases hr; exact h.trans (h.raw s _) (h.order _ _)
theorem putFile_pres (h : OutRel ext R) (b : Bytes) : Pres R (putFile unknownHash b) := by
  intro s a t hr; cases hr; exact h.file s b
theorem dumpFile_pres (h : OutRel ext R) (n d : Bytes) : Pres R (dumpFile ext n d) := by
  intro s a t hr; cases hr; exact h.dump s n d

variable (rs : Resolver)

/-- walks through a `do` block -/
macro "pres_step" h:ident hp:ident : tactic => `(tactic| first
  | exact Pres.pure $hp _
  | exact liftX_pres $h _
  | exact shuffle_pres $h _
  | exact putJs_pres $h _
  | exact putUrl_pres $h _
  | exact putCommand_pres $h _ _
  | exact putText_pres $h _
  | exact putRaw_pres $h _
  | exact putFile_pres $h _
  | exact dumpFile_pres $h _ _
  | exact Pres.ofRes $hp _
  | refine Pres.bind $hp ?_ (fun _ => ?_)
  | dsimp only
  | split)

theorem fileExtract_pres (h : OutRel ext R) (d : Dict) (c : Bool) : Pres R (fileExtract ext rs d c) := by
  have hp : Pre R := h.toPre
  unfold fileExtract
  repeat' pres_step h hp

theorem actionExtract_pres (h : OutRel ext R) (d : Dict) : Pres R (actionExtract ext rs d) := by
  have hp : Pre R := h.toPre
  unfold actionExtract
  repeat' (first | exact fileExtract_pres rs h _ _ | pres_step h hp)

theorem aaExtract_pres (h : OutRel ext R) (aa : Dict) (ks : List Bytes) : Pres R (aaExtract ext rs aa ks) := by
  have hp : Pre R := h.toPre
  induction ks with
  | nil => exact Pres.pure hp _
  | cons k t ih =>
    unfold aaExtract
    repeat' (first | exact ih | exact actionExtract_pres rs h _ | pres_step h hp)

theorem pageParts_pres (h : OutRel ext R) (fonts : Assoc Bytes Font) (a : List Obj) : ∀ n i, Pres R (pageParts rs fonts a n i) := by
  have hp : Pre R := h.toPre
  intro n
  induction n with
  | zero => intro i; exact Pres.pure hp _
  | succ n ih =>
    intro i
    unfold pageParts
    repeat' (first | exact ih _ | pres_step h hp)

theorem pageExtract_pres (h : OutRel ext R) (d : Dict) : Pres R (pageExtract rs d) := by
  have hp : Pre R := h.toPre
  unfold pageExtract
  repeat' (first | exact pageParts_pres rs h _ _ _ _ | pres_step h hp)

theorem pagesExtract_pres (h : OutRel ext R) (l : List Dict) : Pres R (pagesExtract rs l) := by
  have hp : Pre R := h.toPre
  induction l with
  | nil => exact Pres.pure hp _
  | cons d t ih =>
    unfold pagesExtract
    exact Pres.bind hp (pageExtract_pres rs h d) fun _ => ih

theorem embeddedExtract_pres (h : OutRel ext R) (l : List Obj) : ∀ n i, Pres R (embeddedExtract ext rs l n i) := by
  have hp : Pre R := h.toPre
  intro n
  induction n with
  | zero => intro i; exact Pres.pure hp _
  | succ n ih =>
    intro i
    unfold embeddedExtract
    repeat' (first | exact ih _ | exact fileExtract_pres rs h _ _ | pres_step h hp)

theorem urlsExtract_pres (h : OutRel ext R) (l : List Obj) : ∀ n i, Pres R (urlsExtract rs l n i) := by
  have hp : Pre R := h.toPre
  intro n
  induction n with
  | zero => intro i; exact Pres.pure hp _
  | succ n ih =>
    intro i
    unfold urlsExtract
    repeat' (first | exact ih _ | pres_step h hp)

theorem dictExtract_pres (h : OutRel ext R) (fuel : Nat) (d : Dict) : Pres R (dictExtract ext rs fuel d) := by
  have hp : Pre R := h.toPre
  unfold dictExtract dictActions dictXfa dictEmbedded dictJs dictPages dictUri dictUrls
  repeat' (first | exact actionExtract_pres rs h _ | exact aaExtract_pres rs h _ _ | exact embeddedExtract_pres rs h _ _ _ |
    exact urlsExtract_pres rs h _ _ _ | exact pagesExtract_pres rs h _ | pres_step h hp)

theorem runAll_pres (h : OutRel ext R) : ∀ l : List (X Unit), (∀ x ∈ l, Pres R x) → Pres R (runAll l) := by
  intro l
  induction l with
  | nil => intro _; exact Pres.pure h.toPre _
  | cons x t ih =>
    intro hl
    unfold runAll
    exact Pres.bind h.toPre (hl x (by simp)) fun _ => ih fun y hy => hl y (by simp [hy])

/-- A permuted list has the same members. -/
theorem shuffle_mem {α : Type} {l l' : List α} {s s' : XS} (h : shuffle l s = .ok (l', s')) : ∀ x ∈ l', x ∈ l := by
  rw [shuffle] at h
  cases h
  intro x hx
  obtain ⟨i, -, hi⟩ := List.mem_filterMap.1 hx
  exact List.mem_of_getElem? hi

theorem shuffled_pres (h : OutRel ext R) {l : List (X Unit)} (hl : ∀ x ∈ l, Pres R x) :
    Pres R (shuffle l >>= runAll) := by
  intro s a t hr
  obtain ⟨l', s', h1, h2⟩ := bind_ok hr
  exact h.trans (shuffle_pres h l _ _ _ h1) (runAll_pres h l' (fun x hx => hl x (shuffle_mem h1 x hx)) _ _ _ h2)

mutual
theorem extractObj_pres (h : OutRel ext R) (fuel : Nat) : ∀ o, Pres R (extractObj ext rs fuel o)
  | .dict d => by
    unfold extractObj
    exact Pres.bind h.toPre (dictExtract_pres rs h fuel d) fun _ => shuffled_pres h (extractVals_pres h fuel d)
  | .arr l => by
    unfold extractObj
    exact runAll_pres h _ (extractList_pres h fuel l)
  | .kw _ => by unfold extractObj; exact Pres.pure h.toPre _
  | .num _ => by unfold extractObj; exact Pres.pure h.toPre _
  | .name _ => by unfold extractObj; exact Pres.pure h.toPre _
  | .str _ => by unfold extractObj; exact Pres.pure h.toPre _
  | .ref _ _ => by unfold extractObj; exact Pres.pure h.toPre _
theorem extractVals_pres (h : OutRel ext R) (fuel : Nat) : ∀ l, ∀ x ∈ extractVals ext rs fuel l, Pres R x
  | [] => by unfold extractVals; intro x hx; cases hx
  | (_, v) :: t => by
    unfold extractVals
    intro x hx
    rcases List.mem_cons.1 hx with hx | hx
    · rw [hx]; exact extractObj_pres h fuel v
    · exact extractVals_pres h fuel t x hx
theorem extractList_pres (h : OutRel ext R) (fuel : Nat) : ∀ l, ∀ x ∈ extractList ext rs fuel l, Pres R x
  | [] => by unfold extractList; intro x hx; cases hx
  | v :: t => by
    unfold extractList
    intro x hx
    rcases List.mem_cons.1 hx with hx | hx
    · rw [hx]; exact extractObj_pres h fuel v
    · exact extractList_pres h fuel t x hx
end

theorem objectExtract_pres (h : OutRel ext R) (fuel : Nat) (o : IndObj) : Pres R (objectExtract ext rs fuel o) := by
  unfold objectExtract
  split
  · exact extractObj_pres rs h fuel _
  · exact Pres.pure h.toPre _

theorem extractEntry_pres {env : Env} (h : OutRel env.ext R) (f ft : Nat) (x : Int × XrefEntry) :
    Pres R (extractEntry env f ft x) := by
  have hp : Pre R := h.toPre
  unfold extractEntry
  repeat' (first | exact objectExtract_pres _ h _ _ | pres_step h hp)

theorem extractAll_pres {env : Env} (h : OutRel env.ext R) (f ft : Nat) (l : List (Int × XrefEntry)) :
    Pres R (extractAll env f ft l) := by
  unfold extractAll
  refine Pres.bind h.toPre (shuffle_pres h l) fun l' => runAll_pres h _ fun x hx => ?_
  obtain ⟨y, -, hy⟩ := List.mem_map.1 hx
  rw [← hy]; exact extractEntry_pres h f ft y

end Pdf
