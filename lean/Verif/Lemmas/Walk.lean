import Verif.Model.Extract
import Verif.Spec.Extract
/-!
Properties of reads and of extraction steps that are closed under sequencing hold for all of the
extraction.
-/

namespace Pdf
open Spec

/-- A property of reads closed under sequencing. -/
structure Cl (rs : Resolver) (C : ∀ {α : Type}, M α → Prop) : Prop where
  pure : ∀ {α : Type} (a : α), C (pure a : M α)
  bind : ∀ {α β : Type} {x : M α} {f : α → M β}, C x → (∀ a, C (f a)) → C (x >>= f)
  ofRes : ∀ {α : Type} (x : Res α), C (St.ofRes x : M α)
  rs : ∀ n, C (rs n)

section
variable {rs : Resolver} {C : ∀ {α : Type}, M α → Prop} (h : Cl rs C)
include h

theorem Cl.deref (o : Obj) : C (deref rs o) := by
  cases o with
  | ref n g => exact h.bind (h.rs n) fun _ => h.pure _
  | _ => exact h.pure _

theorem Cl.dictObject (d : Dict) (k : Bytes) : C (Dict.getObject rs d k) := by
  rw [Dict.getObject]
  split
  · exact h.bind (h.deref _) fun _ => h.pure _
  · exact h.pure _

theorem Cl.arrObject (a : List Obj) (i : Int) : C (Arr.getObject rs a i) := by
  rw [Arr.getObject]
  split
  · exact h.pure _
  · split
    · exact h.bind (h.deref _) fun _ => h.pure _
    · exact h.pure _

theorem Cl.dictArray (d : Dict) (k : Bytes) : C (Dict.getArray rs d k) := h.bind (h.dictObject d k) fun _ => h.pure _
theorem Cl.dictDict (d : Dict) (k : Bytes) : C (Dict.getDict rs d k) := h.bind (h.dictObject d k) fun _ => h.pure _
theorem Cl.dictName (d : Dict) (k : Bytes) : C (Dict.getName rs d k) := h.bind (h.dictObject d k) fun _ => h.pure _
theorem Cl.dictString (d : Dict) (k : Bytes) : C (Dict.getString rs d k) := h.bind (h.dictObject d k) fun _ => h.pure _
theorem Cl.dictStream (d : Dict) (k : Bytes) : C (Dict.getStream rs d k) := by
  rw [Dict.getStream]
  split
  · exact h.bind (h.rs _) fun _ => h.pure _
  · exact h.pure _
theorem Cl.arrDict (a : List Obj) (i : Int) : C (Arr.getDict rs a i) := h.bind (h.arrObject a i) fun _ => h.pure _
theorem Cl.arrString (a : List Obj) (i : Int) : C (Arr.getString rs a i) := h.bind (h.arrObject a i) fun _ => h.pure _
theorem Cl.arrStream (a : List Obj) (i : Int) : C (Arr.getStream rs a i) := by
  rw [Arr.getStream]
  split
  · exact h.pure _
  · split
    · exact h.bind (h.rs _) fun _ => h.pure _
    · exact h.pure _

theorem Cl.oof {α : Type} : C (fun _ => .oof : M α) := h.ofRes Res.oof

theorem Cl.nameTree : ∀ f, (∀ d seen, C (nameTree rs f d seen)) ∧ ∀ kids acc seen, C (nameTreeKids rs f kids acc seen) := by
  intro f
  induction f with
  | zero =>
    refine ⟨fun d seen => ?_, fun kids acc seen => ?_⟩
    · rw [Pdf.nameTree]; exact h.oof
    · rw [Pdf.nameTreeKids.eq_def]; exact h.oof
  | succ f ih =>
    refine ⟨fun d seen => ?_, fun kids acc seen => ?_⟩
    · rw [Pdf.nameTree]
      refine h.bind (h.dictArray _ _) fun names => h.bind (h.dictArray _ _) fun kids => ?_
      cases kids with
      | none => exact h.pure _
      | some kids => exact ih.2 _ _ _
    · cases kids with
      | nil => rw [Pdf.nameTreeKids]; exact h.pure _
      | cons kid kids =>
        rw [Pdf.nameTreeKids.eq_def]
        dsimp only
        split
        · split
          · exact ih.2 _ _ _
          · exact h.bind (h.rs _) fun o => h.bind (ih.1 _ _) fun p => ih.2 _ _ _
        · exact h.bind (ih.1 _ _) fun p => ih.2 _ _ _

theorem Cl.nameTreeMap (f : Nat) (d : Dict) (k : Bytes) : C (getNameTreeMap rs f d k) := by
  refine h.bind (h.dictDict d k) fun r => ?_
  cases r with
  | none => exact h.pure _
  | some root => exact h.bind ((h.nameTree f).1 _ _) fun _ => h.pure _

theorem Cl.resolveKids : ∀ f, (∀ d seen, C (resolveKids rs f d seen)) ∧ ∀ kids acc seen, C (resolveKidsLoop rs f kids acc seen) := by
  intro f
  induction f with
  | zero =>
    refine ⟨fun d seen => ?_, fun kids acc seen => ?_⟩
    · rw [Pdf.resolveKids]; exact h.oof
    · rw [Pdf.resolveKidsLoop.eq_def]; exact h.oof
  | succ f ih =>
    refine ⟨fun d seen => ?_, fun kids acc seen => ?_⟩
    · rw [Pdf.resolveKids]
      refine h.bind (h.dictArray _ _) fun kids => ?_
      cases kids with
      | none => exact h.pure _
      | some kids => exact ih.2 _ _ _
    · cases kids with
      | nil => rw [Pdf.resolveKidsLoop]; exact h.pure _
      | cons kid kids =>
        rw [Pdf.resolveKidsLoop.eq_def]
        dsimp only
        split
        · split
          · exact ih.2 _ _ _
          · refine h.bind (h.rs _) fun o => ?_
            split
            · exact h.bind (ih.1 _ _) fun p => ih.2 _ _ _
            · exact ih.2 _ _ _
        · exact ih.2 _ _ _

theorem Cl.pageTree (f : Nat) (d : Dict) (k : Bytes) : C (getPageTree rs f d k) := by
  refine h.bind (h.dictDict d k) fun r => ?_
  cases r with
  | none => exact h.pure _
  | some root => exact h.bind ((h.resolveKids f).1 _ _) fun _ => h.pure _

theorem Cl.pageFonts (fonts : Dict) : ∀ ks acc, C (pageFonts rs fonts ks acc) := by
  intro ks
  induction ks with
  | nil => intro acc; exact h.pure _
  | cons k t ih =>
    intro acc
    rw [Pdf.pageFonts]
    exact h.bind (h.dictDict _ _) fun _ => h.bind (h.dictStream _ _) fun _ => h.bind (h.ofRes _) fun _ => ih _

theorem Cl.xfaData (a : List Obj) : ∀ n i acc, C (xfaData rs a n i acc) := by
  intro n
  induction n with
  | zero => intro i acc; exact h.pure _
  | succ n ih =>
    intro i acc
    rw [Pdf.xfaData]
    refine h.bind (h.arrStream _ _) fun r => ?_
    cases r with
    | none => exact ih _ _
    | some d => exact ih _ _

end

/-- One additional action, object.go:55-57. -/
def aaOne (ext : Ext) (rs : Resolver) (aa : Dict) (k : Bytes) : X Unit := do
  match ← liftX (Dict.getDict rs aa k) with
  | some a => actionExtract ext rs a
  | none => pure ()

theorem aaExtract_eq (ext : Ext) (rs : Resolver) (aa : Dict) : ∀ ks, aaExtract ext rs aa ks = runAll (ks.map (aaOne ext rs aa)) := by
  intro ks
  induction ks with
  | nil => rfl
  | cons k t ih =>
    rw [aaExtract, List.map_cons, runAll, ih, aaOne]
    funext s
    show (liftX (Dict.getDict rs aa k) s >>= _) = ((liftX (Dict.getDict rs aa k) >>= _) s >>= _)
    rw [St.bind_run]
    cases liftX (Dict.getDict rs aa k) s with
    | ok p =>
      obtain ⟨r, s'⟩ := p
      cases r <;> rfl
    | panic w => rfl
    | oof => rfl

/-- The page after its fonts are loaded, page.go:24-32. -/
def pageBody (rs : Resolver) (d : Dict) (fonts : Assoc Bytes Font) : X Unit := do
  match ← liftX (Dict.getStream rs d b!"Contents") with
  | some c => putText (← St.ofRes (pageText fonts (c.getD [])))
  | none =>
    match ← liftX (Dict.getArray rs d b!"Contents") with
    | some a => pageParts rs fonts a a.length 0
    | none => pure ()

theorem pageExtract_eq (rs : Resolver) (d : Dict) : pageExtract rs d = (do
    let resources := (← liftX (Dict.getDict rs d b!"Resources")).getD []
    let fonts := (← liftX (Dict.getDict rs resources b!"Font")).getD []
    let keys ← shuffle fonts.keys
    liftX (pageFonts rs fonts keys []) >>= pageBody rs d) := rfl

/-- A property of extraction steps closed under sequencing, for steps that write only to files in `K`. -/
structure XCl (ext : Ext) (rs : Resolver) (K : Kind → Prop) (C : ∀ {α : Type}, M α → Prop) (D : ∀ {α : Type}, X α → Prop) : Prop where
  cl : Cl rs C
  pure : ∀ {α : Type} (a : α), D (pure a : X α)
  bind : ∀ {α β : Type} {x : X α} {f : α → X β}, D x → (∀ a, D (f a)) → D (x >>= f)
  ofRes : ∀ {α : Type} (x : Res α), D (St.ofRes x : X α)
  lift : ∀ {α : Type} {x : M α}, C x → D (liftX x)
  js : ∀ b, K .javascript → D (putJs b)
  url : ∀ b, K .urls → D (putUrl b)
  command : ∀ f p, K .commands → D (putCommand f p)
  file : ∀ n, K .files → D (putFile unknownHash n)
  dump : ∀ n d, K .files → K .dumped → D (dumpFile ext n d)
  text : ∀ fonts c, K .contents → D (St.ofRes (pageText fonts c) >>= putText)
  raw : ∀ o, K .raw → D (putRaw o)
  shuffle : ∀ {α : Type} (l : List α) (f : α → X Unit), (∀ a ∈ l, D (f a)) → D (shuffle l >>= fun l' => runAll (l'.map f))
  fonts : ∀ (fonts d : Dict), (∀ m, D (pageBody rs d m)) → D (Pdf.shuffle fonts.keys >>= fun ks => liftX (pageFonts rs fonts ks []) >>= pageBody rs d)

section
variable {ext : Ext} {rs : Resolver} {K : Kind → Prop} {C : ∀ {α : Type}, M α → Prop} {D : ∀ {α : Type}, X α → Prop} (h : XCl ext rs K C D)
include h

/-- walks through a `do` block -/
macro "walk" h:ident : tactic => `(tactic| first
  | exact XCl.pure $h _
  | exact XCl.lift $h (Cl.dictString (XCl.cl $h) _ _)
  | exact XCl.lift $h (Cl.dictDict (XCl.cl $h) _ _)
  | exact XCl.lift $h (Cl.dictStream (XCl.cl $h) _ _)
  | exact XCl.lift $h (Cl.dictArray (XCl.cl $h) _ _)
  | exact XCl.lift $h (Cl.dictName (XCl.cl $h) _ _)
  | exact XCl.lift $h (Cl.arrDict (XCl.cl $h) _ _)
  | exact XCl.lift $h (Cl.arrString (XCl.cl $h) _ _)
  | exact XCl.lift $h (Cl.arrStream (XCl.cl $h) _ _)
  | exact XCl.lift $h (Cl.nameTreeMap (XCl.cl $h) _ _ _)
  | exact XCl.lift $h (Cl.pageTree (XCl.cl $h) _ _ _)
  | exact XCl.lift $h (Cl.xfaData (XCl.cl $h) _ _ _ _)
  | exact XCl.js $h _ (by assumption)
  | exact XCl.url $h _ (by assumption)
  | exact XCl.command $h _ _ (by assumption)
  | exact XCl.text $h _ _ (by assumption)
  | exact XCl.raw $h _ (by assumption)
  | exact XCl.file $h _ (by assumption)
  | exact XCl.dump $h _ _ (by assumption) (by assumption)
  | refine XCl.bind $h ?_ (fun _ => ?_)
  | dsimp only
  | split)

theorem XCl.fileExtract (hu : K .urls) (hc : K .commands) (hf : K .files) (hd : K .dumped) (d : Dict) (c : Bool) : D (fileExtract ext rs d c) := by
  unfold Pdf.fileExtract
  repeat' walk h

theorem XCl.actionExtract (hu : K .urls) (hc : K .commands) (hf : K .files) (hd : K .dumped) (d : Dict) : D (actionExtract ext rs d) := by
  unfold Pdf.actionExtract
  repeat' (first | exact h.fileExtract hu hc hf hd _ _ | walk h)

theorem XCl.aaOne (hu : K .urls) (hc : K .commands) (hf : K .files) (hd : K .dumped) (aa : Dict) (k : Bytes) : D (aaOne ext rs aa k) := by
  unfold Pdf.aaOne
  repeat' (first | exact h.actionExtract hu hc hf hd _ | walk h)

theorem XCl.dictActions (hu : K .urls) (hc : K .commands) (hf : K .files) (hd : K .dumped) (d : Dict) : D (dictActions ext rs d) := by
  unfold Pdf.dictActions
  have haa : ∀ aa : Dict, D (Pdf.shuffle aa.keys >>= fun ks => aaExtract ext rs aa ks) := by
    intro aa
    have := h.shuffle aa.keys (Pdf.aaOne ext rs aa) fun k _ => h.aaOne hu hc hf hd aa k
    simpa only [aaExtract_eq] using this
  repeat' (first | exact haa _ | exact h.actionExtract hu hc hf hd _ | walk h)

theorem XCl.dictXfa (hf : K .files) (hd : K .dumped) (d : Dict) : D (dictXfa ext rs d) := by
  unfold Pdf.dictXfa
  repeat' walk h

theorem XCl.embeddedExtract (hu : K .urls) (hc : K .commands) (hf : K .files) (hd : K .dumped) (l : List Obj) : ∀ n i, D (embeddedExtract ext rs l n i) := by
  intro n
  induction n with
  | zero => intro i; exact h.pure _
  | succ n ih =>
    intro i
    unfold Pdf.embeddedExtract
    repeat' (first | exact ih _ | exact h.fileExtract hu hc hf hd _ _ | walk h)

theorem XCl.dictEmbedded (hu : K .urls) (hc : K .commands) (hf : K .files) (hd : K .dumped) (fuel : Nat) (d : Dict) : D (dictEmbedded ext rs fuel d) := by
  unfold Pdf.dictEmbedded
  exact h.bind (h.lift (h.cl.nameTreeMap _ _ _)) fun l => h.embeddedExtract hu hc hf hd _ _ _

theorem XCl.dictJs (hj : K .javascript) (d : Dict) : D (dictJs rs d) := by
  unfold Pdf.dictJs
  repeat' walk h

theorem XCl.pageParts (ht : K .contents) (fonts : Assoc Bytes Font) (a : List Obj) : ∀ n i, D (pageParts rs fonts a n i) := by
  intro n
  induction n with
  | zero => intro i; exact h.pure _
  | succ n ih =>
    intro i
    unfold Pdf.pageParts
    refine h.bind (h.lift (h.cl.arrStream _ _)) fun r => ?_
    cases r with
    | none => exact ih _
    | some d =>
      have e : (do putText (← St.ofRes (pageText fonts (d.getD []))); Pdf.pageParts rs fonts a n (i + 1)) =
          ((St.ofRes (pageText fonts (d.getD [])) >>= putText) >>= fun _ => Pdf.pageParts rs fonts a n (i + 1)) := by
        funext s
        cases pageText fonts (d.getD []) <;> rfl
      show D (do putText (← St.ofRes (pageText fonts (d.getD []))); Pdf.pageParts rs fonts a n (i + 1))
      rw [e]
      exact h.bind (h.text _ _ ht) fun _ => ih _

theorem XCl.pageBody (ht : K .contents) (d : Dict) (fonts : Assoc Bytes Font) : D (pageBody rs d fonts) := by
  unfold Pdf.pageBody
  repeat' (first | exact h.pageParts ht _ _ _ _ | walk h)

theorem XCl.pageExtract (ht : K .contents) (d : Dict) : D (pageExtract rs d) := by
  rw [pageExtract_eq]
  exact h.bind (h.lift (h.cl.dictDict _ _)) fun _ => h.bind (h.lift (h.cl.dictDict _ _)) fun _ =>
    h.fonts _ d fun m => h.pageBody ht d m

theorem XCl.pagesExtract (ht : K .contents) (l : List Dict) : D (pagesExtract rs l) := by
  induction l with
  | nil => exact h.pure _
  | cons d t ih => exact h.bind (h.pageExtract ht d) fun _ => ih

theorem XCl.dictPages (ht : K .contents) (fuel : Nat) (d : Dict) : D (dictPages rs fuel d) := by
  unfold Pdf.dictPages
  repeat' (first | exact h.pagesExtract ht _ | walk h)

theorem XCl.dictUri (hu : K .urls) (d : Dict) : D (dictUri rs d) := by
  unfold Pdf.dictUri
  repeat' walk h

theorem XCl.urlsExtract (hu : K .urls) (l : List Obj) : ∀ n i, D (urlsExtract rs l n i) := by
  intro n
  induction n with
  | zero => intro i; exact h.pure _
  | succ n ih =>
    intro i
    unfold Pdf.urlsExtract
    repeat' (first | exact ih _ | walk h)

theorem XCl.dictUrls (hu : K .urls) (fuel : Nat) (d : Dict) : D (dictUrls rs fuel d) := by
  unfold Pdf.dictUrls
  exact h.bind (h.lift (h.cl.nameTreeMap _ _ _)) fun l => h.urlsExtract hu _ _ _

theorem XCl.dictExtract (hK : ∀ k, k ≠ .raw → K k) (fuel : Nat) (d : Dict) : D (dictExtract ext rs fuel d) := by
  unfold Pdf.dictExtract
  exact h.bind (h.dictActions (hK _ nofun) (hK _ nofun) (hK _ nofun) (hK _ nofun) d) fun _ => h.bind (h.dictXfa (hK _ nofun) (hK _ nofun) d) fun _ =>
    h.bind (h.dictEmbedded (hK _ nofun) (hK _ nofun) (hK _ nofun) (hK _ nofun) fuel d) fun _ => h.bind (h.dictJs (hK _ nofun) d) fun _ =>
    h.bind (h.dictPages (hK _ nofun) fuel d) fun _ => h.bind (h.dictUri (hK _ nofun) d) fun _ => h.dictUrls (hK _ nofun) fuel d

theorem XCl.runAll : ∀ l : List (X Unit), (∀ x ∈ l, D x) → D (runAll l) := by
  intro l
  induction l with
  | nil => intro _; exact h.pure _
  | cons x t ih =>
    intro hl
    exact h.bind (hl x (by simp)) fun _ => ih fun y hy => hl y (by simp [hy])

mutual
theorem XCl.extractObj (hK : ∀ k, k ≠ .raw → K k) (fuel : Nat) : ∀ o, D (extractObj ext rs fuel o)
  | .dict d => by
    unfold Pdf.extractObj
    refine h.bind (h.dictExtract hK fuel d) fun _ => ?_
    have := h.shuffle (Pdf.extractVals ext rs fuel d) id (XCl.extractVals hK fuel d)
    simpa only [List.map_id] using this
  | .arr l => by
    unfold Pdf.extractObj
    exact h.runAll _ (XCl.extractList hK fuel l)
  | .kw _ => by unfold Pdf.extractObj; exact h.pure _
  | .num _ => by unfold Pdf.extractObj; exact h.pure _
  | .name _ => by unfold Pdf.extractObj; exact h.pure _
  | .str _ => by unfold Pdf.extractObj; exact h.pure _
  | .ref _ _ => by unfold Pdf.extractObj; exact h.pure _
theorem XCl.extractVals (hK : ∀ k, k ≠ .raw → K k) (fuel : Nat) : ∀ l, ∀ x ∈ extractVals ext rs fuel l, D x
  | [] => by unfold Pdf.extractVals; intro x hx; cases hx
  | (_, v) :: t => by
    unfold Pdf.extractVals
    intro x hx
    rcases List.mem_cons.1 hx with hx | hx
    · rw [hx]; exact XCl.extractObj hK fuel v
    · exact XCl.extractVals hK fuel t x hx
theorem XCl.extractList (hK : ∀ k, k ≠ .raw → K k) (fuel : Nat) : ∀ l, ∀ x ∈ extractList ext rs fuel l, D x
  | [] => by unfold Pdf.extractList; intro x hx; cases hx
  | v :: t => by
    unfold Pdf.extractList
    intro x hx
    rcases List.mem_cons.1 hx with hx | hx
    · rw [hx]; exact XCl.extractObj hK fuel v
    · exact XCl.extractList hK fuel t x hx
end

theorem XCl.objectExtract (hK : ∀ k, k ≠ .raw → K k) (fuel : Nat) (o : IndObj) : D (objectExtract ext rs fuel o) := by
  unfold Pdf.objectExtract
  split
  · exact h.extractObj hK fuel _
  · exact h.pure _

end

theorem XCl.extractEntry {env : Env} {f : Nat} {K : Kind → Prop} {C : ∀ {α : Type}, M α → Prop} {D : ∀ {α : Type}, X α → Prop} (h : XCl env.ext (resolver env f) K C D)
    (hg : ∀ n, C (getObject env f n)) (hK : ∀ k, K k) (ft : Nat) (x : Int × XrefEntry) : D (extractEntry env f ft x) := by
  unfold Pdf.extractEntry
  split
  · exact h.bind (h.ofRes _) fun _ => h.bind (h.lift (hg _)) fun _ => h.bind (h.objectExtract (fun k _ => hK k) _ _) fun _ => h.raw _ (hK _)
  · exact h.pure _

theorem XCl.extractAll {env : Env} {f : Nat} {K : Kind → Prop} {C : ∀ {α : Type}, M α → Prop} {D : ∀ {α : Type}, X α → Prop} (h : XCl env.ext (resolver env f) K C D)
    (hg : ∀ n, C (getObject env f n)) (hK : ∀ k, K k) (ft : Nat) (l : List (Int × XrefEntry)) : D (extractAll env f ft l) :=
  h.shuffle l _ fun x _ => h.extractEntry hg hK ft x

end Pdf
