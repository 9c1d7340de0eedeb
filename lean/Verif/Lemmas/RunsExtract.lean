import Verif.Lemmas.Runs
import Verif.Lemmas.Report
import Verif.Props.Font
import Verif.Props.Page
/-!
Extraction from a tame file returns.
-/

namespace Pdf
open Spec St

/-- Below dictionaries of rank `n`, kids given as dictionaries have smaller ranks, where references stand for values with `V`. -/
def Ranked (T : Dict → Prop) (R : Nat → Dict → Prop) (V : Int → Obj → Prop) : Prop := ∀ n d, R n d → AllDicts T (.dict d) → ∀ o, d.get? b!"Kids" = some o →
  ∀ l, ((o = .arr l) ∨ ∃ m g, o = .ref m g ∧ V m (.arr l)) → ∀ e, .dict e ∈ l → ∃ k < n, R k e

/-- `Resolve` returns, objects whose dictionaries have `T`; those have a rank -/
structure Follows (T : Dict → Prop) (R : Nat → Dict → Prop) (V : Int → Obj → Prop) (x : Assoc Int XrefEntry) (rs : Nat → Resolver) : Prop where
  nil : T []
  rank : ∀ d, T d → ∃ n, R n d
  kids : Ranked T R V
  runs : ∀ n, RunsM (fun o => ResolvedWith T Loads x n o ∧ V n o.value) fun i => rs i.f n

section
variable {T : Dict → Prop} {R : Nat → Dict → Prop} {V : Int → Obj → Prop} {rs : Nat → Resolver} {x : Assoc Int XrefEntry} (h : Follows T R V x rs)
include h

theorem tameInd_runs (n : Int) : RunsM (IndWith T Loads) fun i => rs i.f n := (h.runs n).mono fun _ ho => ho.1.1

/-! ### Trees -/

/-- result of a tree traversal: tame, and the set of visited objects has grown -/
def Grown {α : Type} (P : α → Prop) (seen : List Int) (p : α × List Int) : Prop := P p.1 ∧ ∀ n ∈ seen, n ∈ p.2

theorem asDict_tame {o : Obj} (ho : AllDicts T o) : AllDicts T (.dict ((asDict o).getD [])) := by
  cases o with
  | dict d => exact ho
  | _ => exact AllDicts.ofDict h.nil (by intro p hp; cases hp)

/-- the name tree of a dictionary returns -/
def NameTreeRuns (T : Dict → Prop) (rs : Nat → Resolver) (d : Dict) (seen : List Int) : Prop :=
  RunsM (Grown (fun l : List Obj => ∀ o ∈ l, AllDicts T o) seen) fun i => nameTree (rs i.f) i.ft d seen

theorem nameTree_nil (seen : List Int) : NameTreeRuns T rs [] seen := by
  refine Runs.unshift_ft ?_
  simp only [nameTree, Dict.getArray, Dict.getObject, Assoc.get?]
  exact Runs.pure (a := (([] : List Obj), seen)) ⟨(by intro o ho; cases ho), fun _ h => h⟩

theorem nameTreeKids_runs (k : Nat) (ih1 : ∀ d seen, AllDicts T (.dict d) → left x.keys seen < k → NameTreeRuns T rs d seen) :
    ∀ kids acc seen, (∀ d, .dict d ∈ kids → ∀ seen, left x.keys seen ≤ k → NameTreeRuns T rs d seen) → (∀ o ∈ acc, AllDicts T o) → left x.keys seen ≤ k →
      RunsM (Grown (fun l : List Obj => ∀ o ∈ l, AllDicts T o) seen) fun i => nameTreeKids (rs i.f) i.ft kids acc seen := by
  intro kids
  induction kids with
  | nil =>
    intro acc seen _ ha _
    refine Runs.unshift_ft ?_
    simp only [nameTreeKids]
    exact Runs.pure ⟨ha, fun _ h => h⟩
  | cons kid kids ih =>
    intro acc seen hk ha hl
    have hk' : ∀ d, .dict d ∈ kids → ∀ seen, left x.keys seen ≤ k → NameTreeRuns T rs d seen := fun d hd => hk d (by simp [hd])
    refine Runs.unshift_ft ?_
    by_cases ho : ∃ n gen, kid = .ref n gen
    · obtain ⟨n, gen, rfl⟩ := ho
      by_cases hn : n ∈ seen
      · simp only [nameTreeKids_seen hn]
        exact ih acc seen hk' ha hl
      · simp only [nameTreeKids_ref hn]
        refine Runs.bind (h.runs n) fun o ho => ?_
        refine Runs.bind (P := Grown (fun l : List Obj => ∀ o ∈ l, AllDicts T o) (n :: seen)) ?_ fun p hp => ?_
        · by_cases hx : x.get? n = none
          · rw [ho.1.2 hx]
            exact nameTree_nil h (n :: seen)
          · refine ih1 _ (n :: seen) (asDict_tame h ho.1.1.1) ?_
            have := left_lt (mem_keys hx) hn
            omega
        · refine (ih (acc ++ p.1) p.2 hk' ?_ ?_).mono fun q hq => ⟨hq.1, fun m hm => hq.2 m (hp.2 m (by simp [hm]))⟩
          · intro o ho; rcases List.mem_append.1 ho with ho | ho; exact ha o ho; exact hp.1 o ho
          · have := left_mono x.keys (a := seen) (b := p.2) (fun m hm => hp.2 m (by simp [hm]))
            omega
    · have hr : ∀ n gen, kid ≠ .ref n gen := fun n gen e => ho ⟨n, gen, e⟩
      simp only [nameTreeKids_direct hr]
      refine Runs.bind (P := Grown (fun l : List Obj => ∀ o ∈ l, AllDicts T o) seen) ?_ fun p hp => ?_
      · cases kid with
        | dict d => exact hk d (by simp) seen hl
        | _ => exact nameTree_nil h seen
      · refine (ih (acc ++ p.1) p.2 hk' ?_ ?_).mono fun q hq => ⟨hq.1, fun m hm => hq.2 m (hp.2 m hm)⟩
        · intro o ho; rcases List.mem_append.1 ho with ho | ho; exact ha o ho; exact hp.1 o ho
        · have := left_mono x.keys (a := seen) (b := p.2) (fun m hm => hp.2 m hm)
          omega

/-- the kids of a dictionary of rank `n` -/
theorem kids_runs {n : Nat} {d : Dict} (hd : AllDicts T (.dict d)) (hr : R n d) :
    RunsM (fun o : Option (List Obj) => ∀ l, o = some l → (∀ v ∈ l, AllDicts T v) ∧ ∀ e, .dict e ∈ l → ∃ k < n, R k e) fun i => Dict.getArray (rs i.f) d b!"Kids" := by
  simp only [Dict.getArray, Dict.getObject]
  cases hk : d.get? b!"Kids" with
  | none => exact Runs.pure (by rintro l ⟨⟩)
  | some o =>
    cases o with
    | ref m g =>
      refine Runs.bind (Runs.bind (P := fun v => AllDicts T v ∧ V m v) (Runs.bind (h.runs m) fun o ho => Runs.pure ⟨ho.1.1.1, ho.2⟩) fun v hv => Runs.pure (P := fun o => ∀ v, o = some v → AllDicts T v ∧ V m v) (by rintro w ⟨⟩; exact hv)) fun o ho => Runs.pure ?_
      rintro l hl
      cases o with
      | none => cases hl
      | some v =>
        cases v with
        | arr l' => cases hl; exact ⟨(ho _ rfl).1.arr, h.kids n d hr hd _ hk _ (.inr ⟨m, g, rfl, (ho _ rfl).2⟩)⟩
        | _ => cases hl
    | arr l =>
      refine Runs.pure ?_
      rintro l' hl
      cases hl
      exact ⟨(hd.value hk).arr, h.kids n d hr hd _ hk _ (.inl rfl)⟩
    | _ => exact Runs.pure (by rintro l ⟨⟩)

theorem nameTree_runs (k : Nat) : ∀ (d : Dict) seen, AllDicts T (.dict d) → left x.keys seen < k → NameTreeRuns T rs d seen := by
  induction k with
  | zero => intro d seen _ h; omega
  | succ k ihk =>
    have key : ∀ n d, R n d → AllDicts T (.dict d) → ∀ seen, left x.keys seen ≤ k → NameTreeRuns T rs d seen := by
      intro n
      induction n using Nat.strongRecOn with
      | _ n ihn =>
        intro d hr hd seen hl
        refine Runs.unshift_ft ?_
        simp only [nameTree]
        refine Runs.bind (Dict.getArray_runs (rs := fun i => rs i.f) (tameInd_runs h) hd b!"Names") fun names hn => ?_
        have hnames : ∀ o ∈ names.getD [], AllDicts T o := by
          cases names with
          | none => intro o ho; cases ho
          | some l => exact hn l rfl
        refine Runs.bind (kids_runs h hd hr) fun kids hk => ?_
        cases kids with
        | none => exact Runs.pure ⟨hnames, fun _ h => h⟩
        | some kids =>
          obtain ⟨h1, h2⟩ := hk kids rfl
          refine nameTreeKids_runs h k ihk kids _ seen (fun e he => ?_) hnames hl
          obtain ⟨m, hm, hr'⟩ := h2 e he
          exact ihn m hm e hr' (h1 _ he)
    intro d seen hd hl
    obtain ⟨n, hn⟩ := h.rank d hd.dict
    exact key n d hn hd seen (by omega)

theorem getNameTreeMap_runs {d : Dict} (hd : AllDicts T (.dict d)) (key : Bytes) :
    RunsM (fun l : List Obj => ∀ o ∈ l, AllDicts T o) fun i => getNameTreeMap (rs i.f) i.ft d key := by
  simp only [getNameTreeMap]
  refine Runs.bind (Dict.getDict_runs (rs := fun i => rs i.f) (tameInd_runs h) hd key) fun o ho => ?_
  cases o with
  | none => exact Runs.pure (by simp)
  | some root =>
    exact Runs.bind (nameTree_runs h _ root [] (ho root rfl) (Nat.lt_succ_self _)) fun p hp => Runs.pure hp.1

/-- the page tree below a dictionary returns -/
def PageTreeRuns (T : Dict → Prop) (rs : Nat → Resolver) (d : Dict) (seen : List Int) : Prop :=
  RunsM (Grown (fun l : List Dict => ∀ e ∈ l, AllDicts T (.dict e)) seen) fun i => resolveKids (rs i.f) i.ft d seen

theorem resolveKidsLoop_runs (k : Nat) (ih1 : ∀ d seen, AllDicts T (.dict d) → left x.keys seen < k → PageTreeRuns T rs d seen) :
    ∀ kids acc seen, (∀ e ∈ acc, AllDicts T (.dict e)) → left x.keys seen ≤ k →
      RunsM (Grown (fun l : List Dict => ∀ e ∈ l, AllDicts T (.dict e)) seen) fun i => resolveKidsLoop (rs i.f) i.ft kids acc seen := by
  intro kids
  induction kids with
  | nil =>
    intro acc seen ha _
    refine Runs.unshift_ft ?_
    simp only [resolveKidsLoop]
    exact Runs.pure ⟨ha, fun _ h => h⟩
  | cons kid kids ih =>
    intro acc seen ha hl
    refine Runs.unshift_ft ?_
    by_cases ho : ∃ n gen, kid = .ref n gen
    · obtain ⟨n, gen, rfl⟩ := ho
      by_cases hn : n ∈ seen
      · simp only [resolveKidsLoop_seen hn]
        exact ih acc seen ha hl
      · simp only [resolveKidsLoop_ref hn]
        refine Runs.bind (h.runs n) fun o ho => ?_
        have hm := left_mono x.keys (a := seen) (b := n :: seen) (by grind)
        cases hd : asDict o.value with
        | none => exact (ih acc (n :: seen) ha (by omega)).mono fun q hq => ⟨hq.1, fun m hm => hq.2 m (by simp [hm])⟩
        | some kd =>
          have hkd : AllDicts T (.dict kd) := by have := asDict_tame h ho.1.1.1; rwa [hd] at this
          have hx : x.get? n ≠ none := fun hx => by rw [ho.1.2 hx] at hd; cases hd
          refine Runs.bind (ih1 kd (n :: seen) hkd (by have := left_lt (mem_keys hx) hn; omega)) fun p hp => ?_
          refine (ih (acc ++ p.1) p.2 ?_ ?_).mono fun q hq => ⟨hq.1, fun m hm => hq.2 m (hp.2 m (by simp [hm]))⟩
          · intro o ho; rcases List.mem_append.1 ho with ho | ho; exact ha o ho; exact hp.1 o ho
          · have := left_mono x.keys (a := seen) (b := p.2) (fun m hm => hp.2 m (by simp [hm]))
            omega
    · have hr : ∀ n gen, kid ≠ .ref n gen := fun n gen e => ho ⟨n, gen, e⟩
      simp only [resolveKidsLoop_other hr]
      exact ih acc seen ha hl

theorem resolveKids_runs (k : Nat) : ∀ (d : Dict) seen, AllDicts T (.dict d) → left x.keys seen < k → PageTreeRuns T rs d seen := by
  induction k with
  | zero => intro d seen _ h; omega
  | succ k ihk =>
    intro d seen hd hl
    refine Runs.unshift_ft ?_
    simp only [resolveKids]
    refine Runs.bind (Dict.getArray_runs (rs := fun i => rs i.f) (tameInd_runs h) hd b!"Kids") fun kids _ => ?_
    have hd' : ∀ e ∈ [d], AllDicts T (.dict e) := fun e he => by rw [List.mem_singleton.1 he]; exact hd
    cases kids with
    | none => exact Runs.pure ⟨hd', fun _ h => h⟩
    | some kids => exact resolveKidsLoop_runs h k ihk kids [d] seen hd' (by omega)

theorem getPageTree_runs {d : Dict} (hd : AllDicts T (.dict d)) (key : Bytes) :
    RunsM (fun l : Option (List Dict) => ∀ p, l = some p → ∀ e ∈ p, AllDicts T (.dict e)) fun i => getPageTree (rs i.f) i.ft d key := by
  simp only [getPageTree]
  refine Runs.bind (Dict.getDict_runs (rs := fun i => rs i.f) (tameInd_runs h) hd key) fun o ho => ?_
  cases o with
  | none => exact Runs.pure (by simp)
  | some root =>
    exact Runs.bind (resolveKids_runs h _ root [] (ho root rfl) (Nat.lt_succ_self _)) fun p hp => Runs.pure (by rintro _ ⟨⟩; exact hp.1)

/-! ### Extraction -/

/-- computations of extraction -/
abbrev RunsX {α : Type} (P : α → Prop) (x : Depth → X α) : Prop := Runs (fun _ : XS => True) P x

omit h in
theorem RunsX.lift {α : Type} {P : α → Prop} {x : Depth → M α} (hx : RunsM P x) : RunsX P fun i => liftX (x i) := by
  intro s _
  obtain ⟨a, t, ha, -, F, hF⟩ := hx s.ps trivial
  refine ⟨a, { s with ps := t }, ha, trivial, F, fun i hi => ?_⟩
  show (x i s.ps >>= fun p => Res.ok (p.1, { s with ps := p.2 })) = _
  rw [hF i hi]
  rfl

omit h in
theorem putJs_runs (b : Bytes) : RunsX (fun _ => True) fun _ => putJs b := fun _ _ => ⟨(), _, trivial, trivial, 0, fun _ _ => rfl⟩
omit h in
theorem putUrl_runs (b : Bytes) : RunsX (fun _ => True) fun _ => putUrl b := fun _ _ => ⟨(), _, trivial, trivial, 0, fun _ _ => rfl⟩
omit h in
theorem putFile_runs (a b : Bytes) : RunsX (fun _ => True) fun _ => putFile a b := fun _ _ => ⟨(), _, trivial, trivial, 0, fun _ _ => rfl⟩
omit h in
theorem putCommand_runs (a b : Bytes) : RunsX (fun _ => True) fun _ => putCommand a b := fun _ _ => ⟨(), _, trivial, trivial, 0, fun _ _ => rfl⟩
omit h in
theorem putText_runs (b : Bytes) : RunsX (fun _ => True) fun _ => putText b := fun _ _ => ⟨(), _, trivial, trivial, 0, fun _ _ => rfl⟩
omit h in
theorem putRaw_runs (o : IndObj) : RunsX (fun _ => True) fun _ => putRaw o := fun _ _ => ⟨(), _, trivial, trivial, 0, fun _ _ => rfl⟩
omit h in
theorem dumpFile_runs (ext : Ext) (a b : Bytes) : RunsX (fun _ => True) fun _ => dumpFile ext a b := fun _ _ => ⟨(), _, trivial, trivial, 0, fun _ _ => rfl⟩

omit h in
theorem shuffle_runs {α : Type} (l : List α) : RunsX (fun l' => ∀ a ∈ l', a ∈ l) fun _ => shuffle l :=
  fun s _ => ⟨_, _, shuffle_mem (s := s) rfl, trivial, 0, fun _ _ => rfl⟩

omit h in
theorem runAll_runs {α : Type} (g : Depth → α → X Unit) : ∀ l : List α, (∀ a ∈ l, RunsX (fun _ => True) fun i => g i a) → RunsX (fun _ => True) fun i => runAll (l.map (g i)) := by
  intro l
  induction l with
  | nil => intro _; exact Runs.pure trivial
  | cons a t ih => intro hl; exact Runs.bind (hl a (by simp)) fun _ _ => ih fun b hb => hl b (by simp [hb])

omit h in
theorem shuffle_map {α β : Type} (g : α → β) (l : List α) : shuffle (l.map g) = shuffle l >>= fun l' => pure (l'.map g) := by
  funext s
  show Res.ok _ = Res.ok _
  simp [Order.visit, List.map_filterMap]

omit h in
theorem shuffled_runs {α : Type} (g : Depth → α → X Unit) (l : List α) (hl : ∀ a ∈ l, RunsX (fun _ => True) fun i => g i a) :
    RunsX (fun _ => True) fun i => shuffle (l.map (g i)) >>= runAll := by
  have : (fun i => shuffle (l.map (g i)) >>= runAll) = fun i => shuffle l >>= fun l' => runAll (l'.map (g i)) := by
    funext i
    rw [shuffle_map]
    rfl
  rw [this]
  exact Runs.bind (shuffle_runs l) fun l' hl' => runAll_runs g l' fun a ha => hl a (hl' a ha)

/-- fonts with codes of at least one byte -/
def Wide (m : Assoc Bytes Font) : Prop := ∀ n font, m.get? n = some font → 1 ≤ font.width

theorem getDictD_runs {d : Dict} (hd : AllDicts T (.dict d)) (k : Bytes) : RunsM (fun o : Option Dict => AllDicts T (.dict (o.getD []))) fun i => Dict.getDict (rs i.f) d k :=
  (Dict.getDict_runs (rs := fun i => rs i.f) (tameInd_runs h) hd k).mono fun o ho => by
    cases o with
    | none => exact AllDicts.ofDict h.nil (by intro p hp; cases hp)
    | some e => exact ho e rfl

theorem pageFonts_runs {fonts : Dict} (hd : AllDicts T (.dict fonts)) : ∀ ks acc, Wide acc → RunsM Wide fun i => pageFonts (rs i.f) fonts ks acc := by
  intro ks
  induction ks with
  | nil => intro acc ha; exact Runs.pure ha
  | cons k t ih =>
    intro acc ha
    simp only [pageFonts]
    refine Runs.bind (getDictD_runs h hd k) fun o ho => ?_
    refine Runs.bind (Dict.getStream_runs (rs := fun i => rs i.f) (tameInd_runs h) _ _) fun c hc => ?_
    have hl : Loads ((c.getD none).getD []) := by
      have h0 : Loads [] := ⟨{}, by decide +kernel⟩
      cases c with
      | none => exact h0
      | some c =>
        cases c with
        | none => exact h0
        | some b => exact hc b rfl
    refine Runs.bind (P := fun font => 1 ≤ font.width) (Runs.ofRes ?_) fun font hf => ih _ ?_
    · obtain ⟨font, hf⟩ := hl
      exact ⟨font, hf, Props.C43_width hf⟩
    · intro n font' hn
      rw [Assoc.get?_set] at hn
      split at hn
      · cases hn; exact hf
      · exact ha n font' hn

theorem pageText_runs {m : Assoc Bytes Font} (hm : Wide m) (c : Bytes) : RunsX (fun _ => True) fun _ => (St.ofRes (pageText m c) : X Bytes) := by
  obtain ⟨l, hl⟩ := Props.C45_returns hm c
  exact Runs.ofRes ⟨l, hl, trivial⟩

theorem pageParts_runs {m : Assoc Bytes Font} (hm : Wide m) (a : List Obj) : ∀ n j, RunsX (fun _ => True) fun i => pageParts (rs i.f) m a n j := by
  intro n
  induction n with
  | zero => intro j; exact Runs.pure trivial
  | succ n ih =>
    intro j
    simp only [pageParts]
    refine Runs.bind (RunsX.lift (Arr.getStream_runs (rs := fun i => rs i.f) (tameInd_runs h) a j)) fun o _ => ?_
    cases o with
    | none => exact ih _
    | some d => exact Runs.bind (pageText_runs h hm _) fun t _ => Runs.bind (putText_runs t) fun _ _ => ih _

theorem pageExtract_runs {d : Dict} (hd : AllDicts T (.dict d)) : RunsX (fun _ => True) fun i => pageExtract (rs i.f) d := by
  simp only [pageExtract]
  refine Runs.bind (RunsX.lift (getDictD_runs h hd _)) fun r hr => ?_
  refine Runs.bind (RunsX.lift (getDictD_runs h hr _)) fun fo hf => ?_
  refine Runs.bind (shuffle_runs _) fun ks _ => ?_
  refine Runs.bind (RunsX.lift (pageFonts_runs h hf ks [] (by intro n f hn; cases hn))) fun m hm => ?_
  refine Runs.bind (RunsX.lift (Dict.getStream_runs (rs := fun i => rs i.f) (tameInd_runs h) d _)) fun o _ => ?_
  cases o with
  | some c => exact Runs.bind (pageText_runs h hm _) fun t _ => putText_runs t
  | none =>
    refine Runs.bind (RunsX.lift (Dict.getArray_runs (rs := fun i => rs i.f) (tameInd_runs h) hd _)) fun a _ => ?_
    cases a with
    | some a => exact pageParts_runs h hm a _ _
    | none => exact Runs.pure trivial

theorem pagesExtract_runs : ∀ l : List Dict, (∀ d ∈ l, AllDicts T (.dict d)) → RunsX (fun _ => True) fun i => pagesExtract (rs i.f) l := by
  intro l
  induction l with
  | nil => intro _; exact Runs.pure trivial
  | cons d t ih => intro hl; exact Runs.bind (pageExtract_runs h (hl d (by simp))) fun _ _ => ih fun e he => hl e (by simp [he])

theorem getStringX_runs {d : Dict} (hd : AllDicts T (.dict d)) (k : Bytes) : RunsX (fun _ => True) fun i => liftX (Dict.getString (rs i.f) d k) :=
  RunsX.lift (Dict.getString_runs (rs := fun i => rs i.f) (tameInd_runs h) hd k)
theorem getDictX_runs {d : Dict} (hd : AllDicts T (.dict d)) (k : Bytes) : RunsX (fun o => ∀ e, o = some e → AllDicts T (.dict e)) fun i => liftX (Dict.getDict (rs i.f) d k) :=
  RunsX.lift (Dict.getDict_runs (rs := fun i => rs i.f) (tameInd_runs h) hd k)
theorem getArrayX_runs {d : Dict} (hd : AllDicts T (.dict d)) (k : Bytes) : RunsX (fun o => ∀ l, o = some l → ∀ v ∈ l, AllDicts T v) fun i => liftX (Dict.getArray (rs i.f) d k) :=
  RunsX.lift (Dict.getArray_runs (rs := fun i => rs i.f) (tameInd_runs h) hd k)
theorem getStreamX_runs (d : Dict) (k : Bytes) : RunsX (fun _ => True) fun i => liftX (Dict.getStream (rs i.f) d k) :=
  (RunsX.lift (Dict.getStream_runs (rs := fun i => rs i.f) (tameInd_runs h) d k)).mono fun _ _ => trivial

theorem fileExtract_runs (ext : Ext) {d : Dict} (hd : AllDicts T (.dict d)) (b : Bool) : RunsX (fun _ => True) fun i => fileExtract ext (rs i.f) d b := by
  simp only [fileExtract]
  refine Runs.bind (getStringX_runs h hd _) fun fs _ => ?_
  refine Runs.ite (fun _ => ?_) fun _ => ?_
  · refine Runs.bind (getStringX_runs h hd _) fun f _ => ?_
    cases f with
    | some f => exact putUrl_runs f
    | none => exact Runs.pure trivial
  · refine Runs.bind (getDictX_runs h hd _) fun ef hef => ?_
    cases ef with
    | some ef =>
      refine Runs.bind (getStreamX_runs h ef _) fun c _ => ?_
      exact Runs.bind (getStringX_runs h hd _) fun f _ => dumpFile_runs ext _ _
    | none =>
      refine Runs.bind (getStringX_runs h hd _) fun p _ => ?_
      cases p with
      | some p =>
        refine Runs.bind (getStringX_runs h hd _) fun f _ => ?_
        cases f with
        | some f => exact Runs.bind (putFile_runs _ f) fun _ _ => putCommand_runs f p
        | none => exact Runs.pure trivial
      | none =>
        refine Runs.bind (getStringX_runs h hd _) fun f _ => ?_
        cases f with
        | some f =>
          cases b with
          | true => exact Runs.bind (putCommand_runs f []) fun _ _ => putFile_runs _ f
          | false => exact putFile_runs _ f
        | none => exact Runs.pure trivial

theorem actionExtract_runs (ext : Ext) {d : Dict} (hd : AllDicts T (.dict d)) : RunsX (fun _ => True) fun i => actionExtract ext (rs i.f) d := by
  simp only [actionExtract]
  refine Runs.bind (RunsX.lift (Dict.getName_runs (rs := fun i => rs i.f) (tameInd_runs h) hd _)) fun n _ => ?_
  have hw : ∀ b : Bool, RunsX (fun _ => True) fun i => (do
      match ← liftX (Dict.getDict (rs i.f) d b!"Win") with
      | some win => fileExtract ext (rs i.f) win b
      | none => pure ()) := by
    intro b
    refine Runs.bind (getDictX_runs h hd _) fun w hw => ?_
    cases w with
    | some w => exact fileExtract_runs h ext (hw w rfl) b
    | none => exact Runs.pure trivial
  refine Runs.bind (getStringX_runs h hd _) fun f _ => ?_
  cases f with
  | some f => exact Runs.bind (putFile_runs _ f) fun _ _ => hw _
  | none =>
    refine Runs.bind (getDictX_runs h hd _) fun f hf => ?_
    cases f with
    | some f => exact Runs.bind (fileExtract_runs h ext (hf f rfl) _) fun _ _ => hw _
    | none => exact hw _

theorem aaExtract_runs (ext : Ext) {aa : Dict} (hd : AllDicts T (.dict aa)) : ∀ ks, RunsX (fun _ => True) fun i => aaExtract ext (rs i.f) aa ks := by
  intro ks
  induction ks with
  | nil => exact Runs.pure trivial
  | cons k t ih =>
    simp only [aaExtract]
    refine Runs.bind (getDictX_runs h hd _) fun a ha => ?_
    cases a with
    | some a => exact Runs.bind (actionExtract_runs h ext (ha a rfl)) fun _ _ => ih
    | none => exact ih

theorem xfaData_runs (a : List Obj) : ∀ n j acc, RunsM (fun _ => True) fun i => xfaData (rs i.f) a n j acc := by
  intro n
  induction n with
  | zero => intro j acc; exact Runs.pure trivial
  | succ n ih =>
    intro j acc
    simp only [xfaData]
    refine Runs.bind (Arr.getStream_runs (rs := fun i => rs i.f) (tameInd_runs h) a j) fun o _ => ?_
    cases o with
    | none => exact ih _ _
    | some d => exact ih _ _

theorem embeddedExtract_runs (ext : Ext) {l : List Obj} (hl : ∀ o ∈ l, AllDicts T o) : ∀ n j, RunsX (fun _ => True) fun i => embeddedExtract ext (rs i.f) l n j := by
  intro n
  induction n with
  | zero => intro j; exact Runs.pure trivial
  | succ n ih =>
    intro j
    simp only [embeddedExtract]
    refine Runs.bind (RunsX.lift (Arr.getString_runs (rs := fun i => rs i.f) (tameInd_runs h) hl j)) fun o _ => ?_
    cases o with
    | some f => exact Runs.bind (putFile_runs _ f) fun _ _ => ih _
    | none =>
      refine Runs.bind (RunsX.lift (Arr.getDict_runs (rs := fun i => rs i.f) (tameInd_runs h) hl j)) fun o ho => ?_
      cases o with
      | some f => exact Runs.bind (fileExtract_runs h ext (ho f rfl) _) fun _ _ => ih _
      | none => exact ih _

theorem urlsExtract_runs {l : List Obj} (hl : ∀ o ∈ l, AllDicts T o) : ∀ n j, RunsX (fun _ => True) fun i => urlsExtract (rs i.f) l n j := by
  intro n
  induction n with
  | zero => intro j; exact Runs.pure trivial
  | succ n ih =>
    intro j
    simp only [urlsExtract]
    refine Runs.bind (RunsX.lift (Arr.getString_runs (rs := fun i => rs i.f) (tameInd_runs h) hl j)) fun o _ => ?_
    cases o with
    | some u => exact Runs.bind (putUrl_runs u) fun _ _ => ih _
    | none => exact ih _

theorem dictActions_runs (ext : Ext) {d : Dict} (hd : AllDicts T (.dict d)) : RunsX (fun _ => True) fun i => dictActions ext (rs i.f) d := by
  simp only [Props.dictActions_eq]
  refine Runs.bind (getDictX_runs h hd _) fun a ha => Runs.bind (P := fun _ => True) ?_ fun _ _ => Runs.bind (getDictX_runs h hd _) fun b hb => Runs.bind (P := fun _ => True) ?_ fun _ _ => ?_
  · cases a with
    | some a => exact actionExtract_runs h ext (ha a rfl)
    | none => exact Runs.pure trivial
  · cases b with
    | some a => exact actionExtract_runs h ext (hb a rfl)
    | none => exact Runs.pure trivial
  · refine Runs.bind (getDictX_runs h hd _) fun aa haa => ?_
    cases aa with
    | some aa => exact Runs.bind (shuffle_runs _) fun ks _ => aaExtract_runs h ext (haa aa rfl) ks
    | none => exact Runs.pure trivial

theorem dictXfa_runs (ext : Ext) {d : Dict} (hd : AllDicts T (.dict d)) : RunsX (fun _ => True) fun i => dictXfa ext (rs i.f) d := by
  simp only [dictXfa]
  refine Runs.bind (getStreamX_runs h d _) fun o _ => ?_
  cases o with
  | some x => exact dumpFile_runs ext _ _
  | none =>
    refine Runs.bind (getArrayX_runs h hd _) fun a _ => ?_
    cases a with
    | some a => exact Runs.bind (RunsX.lift (xfaData_runs h a _ _ _)) fun data _ => dumpFile_runs ext _ data
    | none => exact Runs.pure trivial

theorem dictEmbedded_runs (ext : Ext) {d : Dict} (hd : AllDicts T (.dict d)) : RunsX (fun _ => True) fun i => dictEmbedded ext (rs i.f) i.ft d := by
  simp only [dictEmbedded]
  exact Runs.bind (RunsX.lift (getNameTreeMap_runs h hd _)) fun l hl => embeddedExtract_runs h ext hl _ _

theorem dictJs_runs {d : Dict} (hd : AllDicts T (.dict d)) : RunsX (fun _ => True) fun i => dictJs (rs i.f) d := by
  simp only [dictJs]
  refine Runs.bind (getStringX_runs h hd _) fun o _ => ?_
  cases o with
  | some js => exact putJs_runs js
  | none =>
    refine Runs.bind (getStreamX_runs h d _) fun o _ => ?_
    cases o with
    | some js => exact putJs_runs _
    | none => exact Runs.pure trivial

theorem dictPages_runs {d : Dict} (hd : AllDicts T (.dict d)) : RunsX (fun _ => True) fun i => dictPages (rs i.f) i.ft d := by
  simp only [dictPages]
  refine Runs.bind (RunsX.lift (getPageTree_runs h hd _)) fun o ho => ?_
  cases o with
  | some l => exact pagesExtract_runs h l (ho l rfl)
  | none => exact Runs.pure trivial

theorem dictUri_runs {d : Dict} (hd : AllDicts T (.dict d)) : RunsX (fun _ => True) fun i => dictUri (rs i.f) d := by
  simp only [dictUri]
  refine Runs.bind (getStringX_runs h hd _) fun o _ => ?_
  cases o with
  | some u => exact putUrl_runs u
  | none =>
    refine Runs.bind (getDictX_runs h hd _) fun o ho => ?_
    cases o with
    | some u =>
      refine Runs.bind (getStringX_runs h (ho u rfl) _) fun o _ => ?_
      cases o with
      | some b => exact putUrl_runs b
      | none => exact Runs.pure trivial
    | none => exact Runs.pure trivial

theorem dictUrls_runs {d : Dict} (hd : AllDicts T (.dict d)) : RunsX (fun _ => True) fun i => dictUrls (rs i.f) i.ft d := by
  simp only [dictUrls]
  exact Runs.bind (RunsX.lift (getNameTreeMap_runs h hd _)) fun l hl => urlsExtract_runs h hl _ _

theorem dictExtract_runs (ext : Ext) {d : Dict} (hd : AllDicts T (.dict d)) : RunsX (fun _ => True) fun i => dictExtract ext (rs i.f) i.ft d := by
  simp only [dictExtract]
  exact Runs.bind (dictActions_runs h ext hd) fun _ _ => Runs.bind (dictXfa_runs h ext hd) fun _ _ => Runs.bind (dictEmbedded_runs h ext hd) fun _ _ =>
    Runs.bind (dictJs_runs h hd) fun _ _ => Runs.bind (dictPages_runs h hd) fun _ _ => Runs.bind (dictUri_runs h hd) fun _ _ => dictUrls_runs h hd

theorem extractObj_runs (ext : Ext) (m : Nat) : ∀ o, sizeOf o < m → AllDicts T o → RunsX (fun _ => True) fun i => extractObj ext (rs i.f) i.ft o := by
  induction m with
  | zero => intro o h; omega
  | succ m ih =>
    intro o hm ho
    cases o with
    | dict d =>
      simp only [extractObj, extractVals_eq]
      refine Runs.bind (dictExtract_runs h ext ho) fun _ _ => shuffled_runs (fun i p => extractObj ext (rs i.f) i.ft p.2) d fun p hp => ih p.2 ?_ ?_
      · have h1 := List.sizeOf_lt_of_mem hp
        have h2 : sizeOf p.2 < sizeOf p := by obtain ⟨a, b⟩ := p; simp <;> omega
        have h3 : sizeOf (Obj.dict d) = 1 + sizeOf d := by simp
        omega
      · intro e he
        exact ho e (by rw [dictsIn]; exact List.mem_cons_of_mem _ (mem_dictsInValues.2 ⟨p, hp, he⟩))
    | arr l =>
      simp only [extractObj, extractList_eq]
      refine runAll_runs (fun i o => extractObj ext (rs i.f) i.ft o) l fun o ho' => ih o ?_ (ho.arr o ho')
      have h1 := List.sizeOf_lt_of_mem ho'
      have h3 : sizeOf (Obj.arr l) = 1 + sizeOf l := by simp
      omega
    | _ => simp only [extractObj]; exact Runs.pure trivial

theorem objectExtract_runs (ext : Ext) {o : IndObj} (ho : AllDicts T o.value) : RunsX (fun _ => True) fun i => objectExtract ext (rs i.f) i.ft o := by
  simp only [objectExtract]
  cases hv : o.value with
  | dict d => exact extractObj_runs h ext _ _ (Nat.lt_succ_self _) (hv ▸ ho)
  | _ => exact Runs.pure trivial

end

/-- extraction returns when `GetObject` does -/
theorem extractAll_ranked {env : Env} {T : Dict → Prop} (R : Nat → Dict → Prop) (V : Int → Obj → Prop) (hg : GetsAll T Loads env) (hn : T []) (hR : ∀ d, T d → ∃ n, R n d) (hk : Ranked T R V)
    (hV : ∀ f n s o t, resolver env f n s = .ok (o, t) → V n o.value) (hv : env.verbose ≠ none) (l : List (Int × XrefEntry)) : RunsX (fun _ => True) fun i => extractAll env i.f i.ft l := by
  simp only [extractAll]
  refine Runs.bind (shuffle_runs l) fun l' _ => runAll_runs (fun i => extractEntry env i.f i.ft) l' fun x _ => ?_
  simp only [extractEntry]
  refine Runs.ite (fun _ => ?_) fun _ => Runs.pure trivial
  refine Runs.bind (P := fun _ => True) (Runs.ofRes ?_) fun _ _ => ?_
  · cases h : env.verbose with
    | none => exact absurd h hv
    | some b => exact ⟨(), rfl, trivial⟩
  refine Runs.bind (RunsX.lift (getObject_runs hg x.1)) fun o ho => ?_
  refine Runs.bind (objectExtract_runs (rs := resolver env) (x := env.xref) (R := R) (V := V) ⟨hn, hR, hk, fun n s hs => ?_⟩ env.ext ho.1) fun _ _ => putRaw_runs _
  obtain ⟨a, t, ha, ht, F, hF⟩ := resolver_runs hg n s hs
  exact ⟨a, t, ⟨ha, hV F n s a t (hF ⟨F, F, F⟩ (by simp only [Depth.lvl]; omega))⟩, ht, F, hF⟩

/-- the same when no dictionary gives its kids by reference -/
theorem extractAll_with {env : Env} {T : Dict → Prop} (hg : GetsAll T Loads env) (hn : T []) (hk : ∀ d : Dict, T d → ∀ n g, d.get? b!"Kids" ≠ some (.ref n g))
    (hv : env.verbose ≠ none) (l : List (Int × XrefEntry)) : RunsX (fun _ => True) fun i => extractAll env i.f i.ft l := by
  refine extractAll_ranked (fun n d => sizeOf d < n) (fun _ _ => True) hg hn (fun d _ => ⟨_, Nat.lt_succ_self _⟩) ?_ (fun _ _ _ _ _ _ => trivial) hv l
  intro n d hr hd o ho l hl e he
  rcases hl with rfl | ⟨m, g, rfl, -⟩
  · refine ⟨sizeOf e + 1, ?_, Nat.lt_succ_self _⟩
    have h1 := List.sizeOf_lt_of_mem (Assoc.get?_some_mem ho)
    have h2 : sizeOf l < sizeOf (b!"Kids", Obj.arr l) := by simp; omega
    have h3 := List.sizeOf_lt_of_mem he
    have h4 : sizeOf (Obj.dict e) = 1 + sizeOf e := by simp
    omega
  · exact absurd ho (hk d hd.dict m g)

end Pdf
