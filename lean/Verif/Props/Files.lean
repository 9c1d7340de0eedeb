import Verif.Props.Pages
import Verif.Lemmas.Writable
import Verif.Spec.Files
/-!
C86, C87: embedded files and programs that are started.
-/

namespace Pdf.Props
open Pdf Spec

/-! ### Lists of names and values -/

theorem _root_.Pdf.Spec.ValueIn.alternate {o : Obj} {l : List Obj} (h : ValueIn o l) : o ∈ alternate l.tail := by
  have key : ∀ {l : List Obj}, ValueIn o l → ∀ k t, l = k :: t → o ∈ Spec.alternate t := by
    intro l h
    induction h with
    | @here k t =>
      rintro k' t' ⟨⟩
      cases t <;> simp [Spec.alternate]
    | @there k x t h ih =>
      rintro k' t' ⟨⟩
      cases t with
      | nil => cases h
      | cons y t => simpa [Spec.alternate] using .inr (ih y t rfl)
  match l, h with
  | k :: t, h => exact key h k t rfl

theorem _root_.Pdf.Spec.ValueIn.append_left {o : Obj} {l r : List Obj} (h : ValueIn o l) : ValueIn o (l ++ r) := by
  induction h with
  | here => exact .here
  | there _ ih => exact .there ih

theorem _root_.Pdf.Spec.ValueIn.append_right {o : Obj} {r : List Obj} (h : ValueIn o r) : ∀ {l : List Obj}, l.length % 2 = 0 → ValueIn o (l ++ r)
  | [], _ => h
  | [_], hl => by simp at hl
  | a :: b :: l, hl => .there (append_right h (l := l) (by simp at hl; omega))

theorem _root_.Pdf.Spec.ValueIn.flatMap {o : Obj} {g : Dict → List Obj} {e : Dict} (h : ValueIn o (g e)) {V : List Dict} : e ∈ V → (∀ d ∈ V, (g d).length % 2 = 0) → ValueIn o (V.flatMap g) := by
  induction V with
  | nil => intro he; cases he
  | cons d V ih =>
    intro he hl
    rw [List.flatMap_cons]
    rcases List.mem_cons.1 he with rfl | he
    · exact h.append_left
    · exact (ih he fun d hd => hl d (by simp [hd])).append_right (hl d (by simp))

/-- A file specification in the name tree of embedded files is one of those reported on. -/
theorem _root_.Pdf.Spec.InTree.reported {v : View} {d f : Dict} {l : List Obj} {ext : Ext} (h : InTree v d f) (hl : Names v d b!"EmbeddedFiles" l) : ∀ w ∈ fileReport ext v false f, w ∈ embeddedReport ext v l := by
  obtain ⟨hr, hp, he, ho, ht⟩ := h
  rw [Names, hr] at hl
  obtain ⟨below, numbers, hn, rfl⟩ := hl
  obtain ⟨V, hV, hb⟩ := hn.blocks
  intro w hw
  rw [embeddedReport, hb]
  exact List.mem_flatMap.2 ⟨_, (ho.flatMap ((hV _).2 he) fun d hd => hp d ((hV d).1 hd)).alternate, by rw [ht]; exact hw⟩

theorem _root_.Pdf.Spec.FileData.dumped {v : View} {f : Dict} {data : Bytes} {ext : Ext} {b : Bool} (h : FileData v f data) : fileReport ext v b f = Spec.dumped ext ((v.string f b!"F").getD zeros) data := by
  obtain ⟨h1, h2, h3, h4⟩ := h
  rw [fileReport, if_neg h1, h2]
  simp [View.streamAt, h3, View.streamOf, h4]

theorem _root_.Pdf.Spec.Starts.reported {v : View} {a : Dict} {name parameters : Bytes} {ext : Ext} (h : Starts v a name parameters) : .command name parameters ∈ actionReport ext v a := by
  obtain ⟨hS, hk, hf, h1, h2, h3, h4⟩ := h
  rename_i k f
  have key : .command name parameters ∈ fileReport ext v (v.name a b!"S" = some b!"Launch") f := by
    rw [fileReport, if_neg h1, h2, h3]
    cases hp : v.string f b!"P" with
    | none => rw [hp] at h4; simp [hS, ← h4]
    | some p => rw [hp] at h4; simp [← h4]
  rw [actionReport]
  rcases hk with rfl | rfl
  · have : v.string a b!"F" = none := by
      rw [View.dict] at hf
      rw [View.string]
      cases hx : v.at_ a b!"F" with
      | none => rfl
      | some o => rw [hx] at hf; cases o <;> first | rfl | cases hf
    rw [this, hf]
    exact List.mem_append_left _ key
  · rw [hf]
    exact List.mem_append_right _ (by simpa using key)

theorem _root_.Pdf.Spec.ActionOf.reported {v : View} {d a : Dict} {ext : Ext} {part : List Write} (h : ActionOf v d a) (hp : Reports ext v d part) : ∀ w ∈ actionReport ext v a, w ∈ part := by
  obtain ⟨aa, embedded, urls, pages, texts, h1, -, -, -, -, rfl⟩ := hp
  intro w hw
  cases h with
  | action h => simp [h, hw]
  | openAction h => simp [h, hw]
  | @additional e k h hk ha =>
    have : w ∈ aa := h1.mem_iff.2 (by
      rw [h]
      simp only [Option.toList_some, List.flatMap_cons, List.flatMap_nil, List.append_nil]
      exact List.mem_flatMap.2 ⟨k, hk, by simp [ha, hw]⟩)
    simp [this]

/-! ### Files under their hash -/

theorem hex2_inj {a b : UInt8} (h : hex2 a = hex2 b) : a = b := by
  have all : ∀ n : Fin 256, parseHex2 ((hex2 (UInt8.ofNat n)).getD 0 0) ((hex2 (UInt8.ofNat n)).getD 1 0) = some (UInt8.ofNat n) := by decide +kernel
  have key : ∀ a : UInt8, parseHex2 ((hex2 a).getD 0 0) ((hex2 a).getD 1 0) = some a := fun a => by
    have := all ⟨a.toNat, a.toNat_lt⟩
    simpa using this
  have := key a
  rw [h, key b] at this
  cases this
  rfl

theorem hexText_inj : ∀ {a b : Bytes}, hexText a = hexText b → a = b
  | [], [], _ => rfl
  | [], y :: b, h => by simp [hexText, hex2] at h
  | x :: a, [], h => by simp [hexText, hex2] at h
  | x :: a, y :: b, h => by
    rw [hexText, List.flatMap_cons, hexText, List.flatMap_cons] at h
    have := List.append_inj h rfl
    rw [hex2_inj this.1, hexText_inj this.2]

theorem dumpInto_some {ws : List Write} : ∀ {m : Assoc Bytes Bytes} {h : Bytes}, (m.get? h).isSome → ((ws.foldl Write.dumpInto m).get? h).isSome := by
  induction ws with
  | nil => intro m h hm; exact hm
  | cons w ws ih =>
    intro m h hm
    refine ih ?_
    cases w <;> try exact hm
    rename_i h' d'
    rw [Write.dumpInto, Assoc.get?_set]
    split
    · rfl
    · exact hm

theorem dumpInto_mem {ws : List Write} {h d : Bytes} (hw : .dump h d ∈ ws) : ∀ {m : Assoc Bytes Bytes}, ((ws.foldl Write.dumpInto m).get? h).isSome := by
  obtain ⟨a, b, rfl⟩ := List.append_of_mem hw
  intro m
  rw [List.foldl_append, List.foldl_cons]
  refine dumpInto_some ?_
  rw [Write.dumpInto, Assoc.get?_set_self]
  rfl

/-! ### The report -/

/-- What `Parse` reports has the embedded files and the programs that are started. -/
theorem report_files {us : List Update} {ext : Ext} {r : ParseResult} (h1 : ContentAddressed ext r.out) (h2 : ∀ view, Means us view → ∃ l ws, l.Nodup ∧ (∀ n, n ∈ l ↔ (meant us n).isSome) ∧ Holds r.out ws ∧
      Parts (fun n part => ∃ p, meant us n = some p ∧ ObjectReport ext view p.obj part) l (visible ws)) : ∀ view, Means us view → ∀ n p, meant us n = some p → ∀ d ∈ dictsOf p.obj,
      (∀ f data, InTree view d f → FileData view f data → (∃ a b, r.out.files = a ++ (manifestLine (hexText (ext.md5 data), (view.string f b!"F").getD zeros) ++ b)) ∧
        ∃ data', r.out.dumped.get? (hexText (ext.md5 data)) = some data' ∧ ext.md5 data' = ext.md5 data) ∧
      (∀ a name parameters, ActionOf view d a → Starts view a name parameters → ∃ x y, r.out.commands = x ++ ((name ++ b!" " ++ parameters ++ b!"\n") ++ y)) := by
  intro view hv n p hm d hdp
  obtain ⟨l, ws, -, h3, h4, h5⟩ := h2 view hv
  obtain ⟨part, hp, h6⟩ := part_has h5 ((h3 n).2 (by rw [hm]; rfl)) hm hdp
  refine ⟨fun f data hf hd => ?_, fun a name parameters ha hs => ?_⟩
  · have hw : ∀ w ∈ Spec.dumped ext ((view.string f b!"F").getD zeros) data, w ∈ ws := by
      intro w hw
      obtain ⟨aa, embedded, urls, pages, texts, -, g1, -, -, -, rfl⟩ := hp
      rw [← FileData.dumped (b := false) hd] at hw
      have := InTree.reported hf g1 w hw
      exact h6 w (by simp [this])
    refine ⟨?_, ?_⟩
    · rw [h4.files]
      exact flatMap_has (w := .file _ _) (hw _ (by simp [Spec.dumped])) Write.filesTxt
    · obtain ⟨data', hx⟩ := Option.isSome_iff_exists.1 (dumpInto_mem (hw (.dump (hexText (ext.md5 data)) data) (by simp [Spec.dumped])) (m := []))
      rw [← h4.dumped] at hx
      exact ⟨data', hx, (hexText_inj (h1.1 _ _ hx)).symm⟩
  · rw [h4.commands]
    exact flatMap_has (w := .command name parameters) (h6 _ (ActionOf.reported ha hp _ (Starts.reported hs))) Write.commandsTxt

/-! ### What is not reported -/

/-- Writes that are not about files and programs. -/
def OtherWrite (w : Write) : Prop := w.filesTxt = [] ∧ w.commandsTxt = [] ∧ ∀ h d, w ≠ .dump h d

theorem scriptReport_other {v : View} {d : Dict} : ∀ w ∈ scriptReport v d, OtherWrite w := by
  intro w hw
  rw [scriptReport] at hw
  have : ∃ b, w = .js b := by
    split at hw
    · exact ⟨_, List.mem_singleton.1 hw⟩
    · exact ⟨_, List.mem_singleton.1 hw⟩
    · cases hw
  obtain ⟨b, rfl⟩ := this
  exact ⟨rfl, rfl, by rintro h d ⟨⟩⟩

theorem uriReport_other {v : View} {d : Dict} : ∀ w ∈ uriReport v d, OtherWrite w := by
  intro w hw
  have : ∃ u, w = .url u := by
    rw [uriReport] at hw
    split at hw
    · exact ⟨_, List.mem_singleton.1 hw⟩
    · obtain ⟨u, -, rfl⟩ := List.mem_map.1 hw; exact ⟨u, rfl⟩
    · cases hw
  obtain ⟨u, rfl⟩ := this
  exact ⟨rfl, rfl, by rintro h d ⟨⟩⟩

theorem urlsReport_other {v : View} {l : List Obj} : ∀ w ∈ urlsReport v l, OtherWrite w := by
  intro w hw
  rw [urlsReport] at hw
  obtain ⟨o, -, hw⟩ := List.mem_flatMap.1 hw
  split at hw
  · rw [List.mem_singleton.1 hw]; exact ⟨rfl, rfl, by rintro h d ⟨⟩⟩
  · cases hw

/-- The dictionary has no action, no form and no tree of embedded files. -/
def NoFiles (v : View) (d : Dict) : Prop := (∀ a, ¬ ActionOf v d a) ∧ v.streamAt d b!"XFA" = none ∧ v.array d b!"XFA" = none ∧ v.dict d b!"EmbeddedFiles" = none

theorem reports_other {ext : Ext} {v : View} {d : Dict} {part : List Write} (h : Reports ext v d part) (hn : NoFiles v d) : ∀ w ∈ part, OtherWrite w := by
  obtain ⟨aa, embedded, urls, pages, texts, h1, h2, -, -, -, rfl⟩ := h
  obtain ⟨k1, k2, k3, k4⟩ := hn
  have e1 : v.dict d b!"A" = none := by cases h : v.dict d b!"A" with | none => rfl | some a => exact absurd (.action h) (k1 a)
  have e2 : v.dict d b!"OpenAction" = none := by cases h : v.dict d b!"OpenAction" with | none => rfl | some a => exact absurd (.openAction h) (k1 a)
  have e3 : aa = [] := by
    rw [List.eq_nil_iff_forall_not_mem]
    intro w hw
    replace hw := h1.mem_iff.1 hw
    obtain ⟨e, he, hw⟩ := List.mem_flatMap.1 hw
    obtain ⟨k, hk, hw⟩ := List.mem_flatMap.1 hw
    obtain ⟨a, ha, hw⟩ := List.mem_flatMap.1 hw
    exact k1 a (.additional (Option.mem_toList.1 he) hk (Option.mem_toList.1 ha))
  rw [Names, k4] at h2
  subst h2
  intro w hw
  rw [e1, e2, e3, formReport, k2, k3] at hw
  simp only [Option.toList_none, List.flatMap_nil, List.nil_append, List.append_nil, List.mem_append, embeddedReport, List.tail_nil, Spec.alternate] at hw
  rcases hw with ((hw | hw) | hw) | hw
  · exact scriptReport_other w hw
  · obtain ⟨t, -, rfl⟩ := List.mem_map.1 hw
    exact ⟨rfl, rfl, by rintro h d ⟨⟩⟩
  · exact uriReport_other w hw
  · exact urlsReport_other w hw

theorem report_nothing {us : List Update} {ext : Ext} {r : ParseResult} (h2 : ∀ view, Means us view → ∃ l ws, l.Nodup ∧ (∀ n, n ∈ l ↔ (meant us n).isSome) ∧ Holds r.out ws ∧
      Parts (fun n part => ∃ p, meant us n = some p ∧ ObjectReport ext view p.obj part) l (visible ws)) {view : View} (hv : Means us view) (hn : ∀ n p, meant us n = some p → ∀ d ∈ dictsOf p.obj, NoFiles view d) :
      r.out.files = [] ∧ r.out.commands = [] ∧ r.out.dumped = [] := by
  obtain ⟨l, ws, -, h3, h4, parts, g1, g2, g3⟩ := h2 view hv
  have key : ∀ w ∈ ws, OtherWrite w := by
    intro w hw
    by_cases hk : w.kind = .errors
    · cases w with
      | error e => exact ⟨rfl, rfl, by rintro h d ⟨⟩⟩
      | _ => cases hk
    · have : w ∈ visible ws := List.mem_filter.2 ⟨hw, by simpa using hk⟩
      rw [g3] at this
      obtain ⟨x, hx, hw⟩ := List.mem_flatMap.1 this
      obtain ⟨p, k1, inside, printed, ⟨ps, q1, q2, q3⟩, -, k2⟩ := g2 x hx
      rw [k2] at hw
      rcases List.mem_append.1 hw with hw | hw
      · rw [q3] at hw
        obtain ⟨y, hy, hw⟩ := List.mem_flatMap.1 hw
        exact reports_other (q2 y hy) (hn _ p k1 _ (q1.mem_iff.1 (List.mem_map.2 ⟨y, hy, rfl⟩))) w hw
      · rw [List.mem_singleton.1 hw]
        exact ⟨rfl, rfl, by rintro h d ⟨⟩⟩
  refine ⟨?_, ?_, ?_⟩
  · rw [h4.files, List.flatMap_eq_nil_iff]; exact fun w hw => (key w hw).1
  · rw [h4.commands, List.flatMap_eq_nil_iff]; exact fun w hw => (key w hw).2.1
  · rw [h4.dumped]
    have : ∀ (ws : List Write), (∀ w ∈ ws, OtherWrite w) → ∀ m, ws.foldl Write.dumpInto m = m := by
      intro ws
      induction ws with
      | nil => intros; rfl
      | cons w ws ih =>
        intro h m
        rw [List.foldl_cons, ih (fun w hw => h w (by simp [hw]))]
        have := (h w (by simp)).2.2
        cases w <;> first | rfl | exact absurd rfl (this _ _)
    exact this ws key []

/-- The dictionary has no action with a file specification and no tree of embedded files. -/
def NoPrograms (v : View) (d : Dict) : Prop := (∀ a, ActionOf v d a → v.dict a b!"F" = none ∧ v.dict a b!"Win" = none) ∧ v.dict d b!"EmbeddedFiles" = none

theorem actionReport_none {ext : Ext} {v : View} {a : Dict} (h : v.dict a b!"F" = none ∧ v.dict a b!"Win" = none) : ∀ w ∈ actionReport ext v a, w.commandsTxt = [] := by
  intro w hw
  rw [actionReport, h.1, h.2] at hw
  simp only [Option.toList_none, List.flatMap_nil, List.append_nil] at hw
  split at hw
  · rw [List.mem_singleton.1 hw]; rfl
  · rename_i h'; cases h'
  · cases hw

theorem dumped_none {ext : Ext} {name data : Bytes} : ∀ w ∈ dumped ext name data, w.commandsTxt = [] := by
  intro w hw
  simp only [dumped, List.mem_cons, List.not_mem_nil, or_false] at hw
  rcases hw with rfl | rfl <;> rfl

theorem formReport_none {ext : Ext} {v : View} {d : Dict} : ∀ w ∈ formReport ext v d, w.commandsTxt = [] := by
  intro w hw
  rw [formReport] at hw
  split at hw
  · exact dumped_none w hw
  · exact dumped_none w hw
  · cases hw

theorem reports_none {ext : Ext} {v : View} {d : Dict} {part : List Write} (h : Reports ext v d part) (hn : NoPrograms v d) : ∀ w ∈ part, w.commandsTxt = [] := by
  obtain ⟨aa, embedded, urls, pages, texts, h1, h2, -, -, -, rfl⟩ := h
  obtain ⟨k1, k2⟩ := hn
  rw [Names, k2] at h2
  subst h2
  intro w hw
  simp only [List.mem_append, embeddedReport, List.tail_nil, Spec.alternate, List.flatMap_nil, List.not_mem_nil, or_false] at hw
  rcases hw with ((((((hw | hw) | hw) | hw) | hw) | hw) | hw) | hw
  · obtain ⟨a, ha, hw⟩ := List.mem_flatMap.1 hw
    exact actionReport_none (k1 a (.action (Option.mem_toList.1 ha))) w hw
  · obtain ⟨a, ha, hw⟩ := List.mem_flatMap.1 hw
    exact actionReport_none (k1 a (.openAction (Option.mem_toList.1 ha))) w hw
  · obtain ⟨e, he, hw⟩ := List.mem_flatMap.1 (h1.mem_iff.1 hw)
    obtain ⟨k, hk, hw⟩ := List.mem_flatMap.1 hw
    obtain ⟨a, ha, hw⟩ := List.mem_flatMap.1 hw
    exact actionReport_none (k1 a (.additional (Option.mem_toList.1 he) hk (Option.mem_toList.1 ha))) w hw
  · exact formReport_none w hw
  · exact (scriptReport_other w hw).2.1
  · obtain ⟨t, -, rfl⟩ := List.mem_map.1 hw
    rfl
  · exact (uriReport_other w hw).2.1
  · exact (urlsReport_other w hw).2.1

theorem report_noCommand {us : List Update} {ext : Ext} {r : ParseResult} (h2 : ∀ view, Means us view → ∃ l ws, l.Nodup ∧ (∀ n, n ∈ l ↔ (meant us n).isSome) ∧ Holds r.out ws ∧
      Parts (fun n part => ∃ p, meant us n = some p ∧ ObjectReport ext view p.obj part) l (visible ws)) {view : View} (hv : Means us view) (hn : ∀ n p, meant us n = some p → ∀ d ∈ dictsOf p.obj, NoPrograms view d) :
      r.out.commands = [] := by
  obtain ⟨l, ws, -, h3, h4, parts, g1, g2, g3⟩ := h2 view hv
  rw [h4.commands, List.flatMap_eq_nil_iff]
  intro w hw
  by_cases hk : w.kind = .errors
  · cases w with
    | error e => rfl
    | _ => cases hk
  · have : w ∈ visible ws := List.mem_filter.2 ⟨hw, by simpa using hk⟩
    rw [g3] at this
    obtain ⟨x, hx, hw⟩ := List.mem_flatMap.1 this
    obtain ⟨p, k1, inside, printed, ⟨ps, q1, q2, q3⟩, -, k2⟩ := g2 x hx
    rw [k2] at hw
    rcases List.mem_append.1 hw with hw | hw
    · rw [q3] at hw
      obtain ⟨y, hy, hw⟩ := List.mem_flatMap.1 hw
      exact reports_none (q2 y hy) (hn _ p k1 _ (q1.mem_iff.1 (List.mem_map.2 ⟨y, hy, rfl⟩))) w hw
    · rw [List.mem_singleton.1 hw]
      rfl

/-! ### C86, C87 -/

section
variable {sys : Sys} {P : Bytes} {us : List Update} {ext : Ext} {v : Bool}

/-- **C86, partial** Every file in the tree of embedded files of a document is in the output directory, under the MD5 of its data,
and files.txt has a line with this MD5 and its name. (The file there has the same MD5: it is the same file, unless two different ones collide.)
Missing: files of annotations (`C86_false`); trees with an odd number of names and values in a node; as for `C75_partial`. -/
theorem C86_partial (hf : sys.input = some (docText P us)) (hc : ∀ h, sys.canCreate h = true)
    (hd : Document ext.toCodecs P us) (hr : RightTables (docText P us) P.length us) (henc : trailerFor us b!"Encrypt" = none) (henc' : ∀ d, FirstDict us.tail d → d.get? b!"Encrypt" = none)
    (hk : KidsEnd us) (hs : StreamsLoad us) (pw : Bytes) :
    ∃ r F, (∀ f fx ft, F ≤ f → F ≤ fx → F ≤ ft → parse sys ext (some v) f fx ft pw = r) ∧ ∀ view, Means us view → ∀ n p, meant us n = some p → ∀ d ∈ dictsOf p.obj,
      ∀ f data, InTree view d f → FileData view f data → (∃ a b, r.out.files = a ++ (manifestLine (hexText (ext.md5 data), (view.string f b!"F").getD zeros) ++ b)) ∧
        ∃ data', r.out.dumped.get? (hexText (ext.md5 data)) = some data' ∧ ext.md5 data' = ext.md5 data := by
  obtain ⟨r, F, h1, -, h2⟩ := C75_partial (v := v) hf hc hd hr henc henc' hk hs pw
  have ha : ContentAddressed ext r.out := by rw [← h1 F F F (Nat.le_refl _) (Nat.le_refl _) (Nat.le_refl _)]; exact C54_parse ..
  exact ⟨r, F, h1, fun view hv n p hm d hdp => (report_files ha h2 view hv n p hm d hdp).1⟩

/-- **C87, partial** Every program that an action of a document starts is in commands.txt with its parameters, when it is given by a file specification.
Missing: programs given by a string (`C87_false`); actions that only follow others (/Next); as for `C75_partial`. -/
theorem C87_partial (hf : sys.input = some (docText P us)) (hc : ∀ h, sys.canCreate h = true)
    (hd : Document ext.toCodecs P us) (hr : RightTables (docText P us) P.length us) (henc : trailerFor us b!"Encrypt" = none) (henc' : ∀ d, FirstDict us.tail d → d.get? b!"Encrypt" = none)
    (hk : KidsEnd us) (hs : StreamsLoad us) (pw : Bytes) :
    ∃ r F, (∀ f fx ft, F ≤ f → F ≤ fx → F ≤ ft → parse sys ext (some v) f fx ft pw = r) ∧ ∀ view, Means us view → ∀ n p, meant us n = some p → ∀ d ∈ dictsOf p.obj,
      ∀ a name parameters, ActionOf view d a → Starts view a name parameters → ∃ x y, r.out.commands = x ++ ((name ++ b!" " ++ parameters ++ b!"\n") ++ y) := by
  obtain ⟨r, F, h1, -, h2⟩ := C75_partial (v := v) hf hc hd hr henc henc' hk hs pw
  have ha : ContentAddressed ext r.out := by rw [← h1 F F F (Nat.le_refl _) (Nat.le_refl _) (Nat.le_refl _)]; exact C54_parse ..
  exact ⟨r, F, h1, fun view hv n p hm d hdp => (report_files ha h2 view hv n p hm d hdp).2⟩

/-- **C86 and C87, partial** The same for encrypted documents, with the user password. Missing: as for `C76_report_partial`, `C86_partial` and `C87_partial`. -/
theorem C86_secret_partial {c : Secrecy} {skip : Option Int} {enc : Dict} {sd : StdDict} {pw : Bytes} (hf : sys.input = some (docText P us)) (hc : ∀ h, sys.canCreate h = true)
    (hd : Document (Reading.secret ext.md5 rc4 ext.toCodecs c skip) P us) (hr : RightTables (docText P us) P.length us) (ht : Typed us) (he : EncryptAt us enc skip) (hs : StdEntries us enc sd)
    (hp : UserPassword ext.md5 rc4 sd pw) (hk : Keys ext.md5 enc sd pw c) (hki : KidsEnd us) (hst : StreamsLoad us) :
    ∃ r F, (∀ f fx ft, F ≤ f → F ≤ fx → F ≤ ft → parse sys ext (some v) f fx ft pw = r) ∧ ∀ view, Means us view → ∀ n p, meant us n = some p → ∀ d ∈ dictsOf p.obj,
      (∀ f data, InTree view d f → FileData view f data → (∃ a b, r.out.files = a ++ (manifestLine (hexText (ext.md5 data), (view.string f b!"F").getD zeros) ++ b)) ∧
        ∃ data', r.out.dumped.get? (hexText (ext.md5 data)) = some data' ∧ ext.md5 data' = ext.md5 data) ∧
      ∀ a name parameters, ActionOf view d a → Starts view a name parameters → ∃ x y, r.out.commands = x ++ ((name ++ b!" " ++ parameters ++ b!"\n") ++ y) := by
  obtain ⟨r, F, h1, -, h2, -⟩ := C76_report_partial (v := v) hf hc hd hr ht he hs hp hk hki hst
  have ha : ContentAddressed ext r.out := by rw [← h1 F F F (Nat.le_refl _) (Nat.le_refl _) (Nat.le_refl _)]; exact C54_parse ..
  exact ⟨r, F, h1, report_files ha h2⟩

end

/-! ### Documents -/

theorem after_mem {es : List Edit} {n : Int} {o : IndObj} (h : after es n = some o) : ∃ e ∈ es, o ∈ e.puts := by
  have key : ∀ (es : List Edit) (m : Int → Option IndObj), es.foldl Edit.apply m n = some o → (m n = some o) ∨ ∃ e ∈ es, o ∈ e.puts := by
    intro es
    induction es with
    | nil => intro m h; exact .inl h
    | cons e es ih =>
      intro m h
      rcases ih _ h with h | ⟨e', he, ho⟩
      · rw [Edit.apply] at h
        split at h
        · rename_i o' hf
          cases h
          exact .inr ⟨e, by simp, by simpa using List.mem_of_find?_eq_some hf⟩
        · split at h
          · cases h
          · exact .inl h
      · exact .inr ⟨e', by simp [he], ho⟩
  exact (key es _ h).resolve_left (by simp)

/-- A document that the code reports on, as a check: the first object is the root. -/
def documentB (es : List Edit) : Bool :=
  (match es with | e :: _ => !e.puts.isEmpty | [] => false) && es.all writableB && decide ((fileText 1 es).length < 4000) && es.all fun e => e.puts.all fun o =>
    ((dictsIn o.value).all fun d => match d.get? b!"Kids" with | some (.ref _ _) => false | _ => true) && (match o.value with | .ref _ _ => false | _ => true) &&
    match (reread o).stream with
    | none => true
    | some data => match newFont data with | .ok _ => true | _ => false

theorem tablesFit_short {root : Nat} : ∀ {es : List Edit} {pos : Nat} {prev : Option Nat}, (editsText root pos prev es).length < 4095 → TablesFit root pos prev es := by
  intro es
  induction es with
  | nil => intros; trivial
  | cons e es ih =>
    intro pos prev h
    rw [editsText, List.length_append] at h
    have : (e.table pos).length ≤ (e.text root pos prev).length := by
      simp only [Edit.text, List.length_append]
      omega
    exact ⟨by omega, ih (by omega)⟩

/-- What references stand for in a file of edits. -/
def viewOf (es : List Edit) : View := ⟨fun n => ((after es n).map (·.value)).getD .null, fun n => (after es n).bind fun o => (reread o).stream⟩

/-- A document that meets the check meets the hypotheses of C75. -/
theorem document_of_check {es : List Edit} (h : documentB es = true) (cd : Codecs) :
    Document cd docHead (updatesOf 1 9 none es) ∧ RightTables (docText docHead (updatesOf 1 9 none es)) docHead.length (updatesOf 1 9 none es) ∧ trailerFor (updatesOf 1 9 none es) b!"Encrypt" = none ∧
      (∀ d, FirstDict (updatesOf 1 9 none es).tail d → d.get? b!"Encrypt" = none) ∧ KidsEnd (updatesOf 1 9 none es) ∧ StreamsLoad (updatesOf 1 9 none es) ∧ Means (updatesOf 1 9 none es) (viewOf es) ∧
      ∀ n, meant (updatesOf 1 9 none es) n = (after es n).map pieceOf := by
  simp only [documentB, Bool.and_eq_true, Bool.not_eq_true'] at h
  obtain ⟨⟨⟨h1, h2⟩, h3⟩, h4⟩ := h
  have hne : Begins es := by
    cases es with
    | nil => cases h1
    | cons e es => exact ⟨e, es, rfl, by rintro h; simp [h] at h1⟩
  have he : ∀ e ∈ es, e.Writable := fun e he => writable_of_check (List.all_eq_true.1 h2 e he)
  have hl := of_decide_eq_true h3
  have hm := edits_means (root := 1) he
  have hfit : TablesFit 1 9 none es := tablesFit_short (by rw [fileText, List.length_append] at hl; omega)
  have key : ∀ n o, after es n = some o → (∀ d ∈ dictsIn o.value, ∀ m g, d.get? b!"Kids" ≠ some (.ref m g)) ∧ (∀ m g, o.value ≠ .ref m g) ∧ ∀ data, (reread o).stream = some data → ∃ font, newFont data = .ok font := by
    intro n o ho
    obtain ⟨e, hee, hoe⟩ := after_mem ho
    have := List.all_eq_true.1 (List.all_eq_true.1 h4 e hee) o hoe
    simp only [Bool.and_eq_true] at this
    obtain ⟨⟨k1, k2⟩, k3⟩ := this
    refine ⟨fun d hd m g hk => ?_, fun m g hv => ?_, fun data hd => ?_⟩
    · have := List.all_eq_true.1 k1 d hd
      rw [hk] at this
      cases this
    · rw [hv] at k2; cases k2
    · rw [hd] at k3
      dsimp only at k3
      cases hn : newFont data with
      | ok font => exact ⟨font, rfl⟩
      | _ => rw [hn] at k3; cases k3
  refine ⟨edits_document (by decide) hne he hfit (by omega), (rightTables_plain (updatesOf_linear 1 9 es)).2 (edits_right es he _ _), edits_trailer (by decide) es hne.ne 9, edits_first_tail he, ?_, ?_,
    edits_view he fun n o ho => (key n o ho).2.1, hm⟩
  · refine KidsInPlace.ends fun n p hp => ?_
    rw [hm] at hp
    obtain ⟨o, ho, rfl⟩ := Option.map_eq_some_iff.1 hp
    exact (key n o ho).1
  · intro n p hp
    rw [hm] at hp
    obtain ⟨o, ho, rfl⟩ := Option.map_eq_some_iff.1 hp
    exact (key n o ho).2.2

/-- A document with an embedded file and an action that starts a program. -/
def filesEdits : List Edit := [⟨[
  ⟨1, 0, .dict [(b!"Names", .dict [(b!"EmbeddedFiles", .dict [(b!"Names", .arr [.str b!"a", .ref 2 0])])]), (b!"OpenAction", .dict [(b!"S", .name b!"Launch"), (b!"Win", .dict [(b!"F", .str b!"c.exe"), (b!"P", .str b!"-x")])])], none⟩,
  ⟨2, 0, .dict [(b!"EF", .dict [(b!"F", .ref 3 0)]), (b!"F", .str b!"a.txt")], none⟩,
  ⟨3, 0, .dict [(b!"Length", .num (.fin 4))], some b!"data"⟩], [0]⟩]

theorem filesEdits_check : documentB filesEdits = true := by decide +kernel

example (sys : Sys) (ext : Ext) (hf : sys.input = some (fileText 1 filesEdits)) (hc : ∀ h, sys.canCreate h = true) (pw : Bytes) :
    ∃ r F, (∀ f fx ft, F ≤ f → F ≤ fx → F ≤ ft → parse sys ext (some true) f fx ft pw = r) ∧ (∃ a b, r.out.files = a ++ (hexText (ext.md5 b!"data") ++ b!":a.txt\n" ++ b)) ∧
      ∃ data, r.out.dumped.get? (hexText (ext.md5 b!"data")) = some data ∧ ext.md5 data = ext.md5 b!"data" := by
  obtain ⟨h1, h2, h3, h4, h5, h6, h7, h8⟩ := document_of_check filesEdits_check ext.toCodecs
  obtain ⟨r, F, g1, g2⟩ := C86_partial (v := true) (by rw [docText_updates]; exact hf) hc h1 h2 h3 h4 h5 h6 pw
  refine ⟨r, F, g1, ?_⟩
  have := g2 _ h7 1 _ (by rw [h8]; rfl) [(b!"EmbeddedFiles", .dict [(b!"Names", .arr [.str b!"a", .ref 2 0])])] (by
      show _ ∈ dictsIn _
      simp [dictsIn, dictsInValues])
    [(b!"EF", .dict [(b!"F", .ref 3 0)]), (b!"F", .str b!"a.txt")] b!"data" (.mk rfl (by
      intro e he
      have key : ∀ e, Node (viewOf filesEdits).value [(b!"Names", .arr [.str b!"a", .ref 2 0])] e → e = [(b!"Names", .arr [.str b!"a", .ref 2 0])] := by
        intro e he
        induction he with
        | root => rfl
        | direct _ hk ih => subst ih; cases hk
        | indirect _ hk _ ih => subst ih; cases hk
      rw [key e he]
      rfl) .root (o := .ref 2 0) .here rfl) (.mk (by decide) rfl rfl rfl)
  obtain ⟨⟨a, b, e⟩, k⟩ := this
  exact ⟨⟨a, b, by rw [e]; simp [manifestLine, View.string, View.at_, Assoc.get?, target]⟩, k⟩

example (sys : Sys) (ext : Ext) (hf : sys.input = some (fileText 1 filesEdits)) (hc : ∀ h, sys.canCreate h = true) (pw : Bytes) :
    ∃ r F, (∀ f fx ft, F ≤ f → F ≤ fx → F ≤ ft → parse sys ext (some true) f fx ft pw = r) ∧ ∃ a b, r.out.commands = a ++ (b!"c.exe -x\n" ++ b) := by
  obtain ⟨h1, h2, h3, h4, h5, h6, h7, h8⟩ := document_of_check filesEdits_check ext.toCodecs
  obtain ⟨r, F, g1, g2⟩ := C87_partial (v := true) (by rw [docText_updates]; exact hf) hc h1 h2 h3 h4 h5 h6 pw
  exact ⟨r, F, g1, g2 _ h7 1 _ (by rw [h8]; rfl) _ (List.mem_cons_self ..) _ b!"c.exe" b!"-x" (.openAction rfl) (.mk rfl (.inr rfl) rfl (by decide) rfl rfl rfl)⟩

/-- A document with a file attached by an annotation. -/
def attachedEdits : List Edit := [⟨[
  ⟨1, 0, .dict [(b!"Type", .name b!"Catalog")], none⟩,
  ⟨2, 0, .dict [(b!"Subtype", .name b!"FileAttachment"), (b!"FS", .ref 3 0)], none⟩,
  ⟨3, 0, .dict [(b!"EF", .dict [(b!"F", .ref 4 0)]), (b!"F", .str b!"a.txt")], none⟩,
  ⟨4, 0, .dict [(b!"Length", .num (.fin 4))], some b!"data"⟩], [0]⟩]

theorem attachedEdits_check : documentB attachedEdits = true := by decide +kernel

/-- **C86 fails** for files that are attached by an annotation: they are not in the output directory, and not in files.txt. -/
theorem C86_false {sys : Sys} (ext : Ext) (hf : sys.input = some (fileText 1 attachedEdits)) (hc : ∀ h, sys.canCreate h = true) (pw : Bytes) :
    ∃ us, docText docHead us = fileText 1 attachedEdits ∧ Document ext.toCodecs docHead us ∧ RightTables (docText docHead us) docHead.length us ∧
      (∃ view n p f, Means us view ∧ meant us n = some p ∧ ∃ d ∈ dictsOf p.obj, Embeds view d f ∧ FileData view f b!"data") ∧
      ∃ r F, (∀ f fx ft, F ≤ f → F ≤ fx → F ≤ ft → parse sys ext (some true) f fx ft pw = r) ∧ r.outcome = .returned none ∧ r.out.files = [] ∧ r.out.dumped = [] := by
  obtain ⟨h1, h2, h3, h4, h5, h6, h7, h8⟩ := document_of_check attachedEdits_check ext.toCodecs
  obtain ⟨r, F, g1, g2, g3⟩ := C75_partial (v := true) (by rw [docText_updates]; exact hf) hc h1 h2 h3 h4 h5 h6 pw
  refine ⟨_, docText_updates 1 attachedEdits, h1, h2, ⟨viewOf attachedEdits, 2, _, _, h7, by rw [h8]; rfl, _, List.mem_cons_self .., .attached rfl rfl, .mk (by decide) rfl rfl rfl⟩, r, F, g1, g2, ?_⟩
  have := report_nothing g3 h7 (by
    intro n p hp d hd
    rw [h8] at hp
    obtain ⟨o, ho, rfl⟩ := Option.map_eq_some_iff.1 hp
    obtain ⟨e, he, hoe⟩ := after_mem ho
    have key : ∀ e ∈ attachedEdits, ∀ o ∈ e.puts, ∀ d ∈ dictsOf (pieceOf o).obj, ∀ k ∈ [b!"A", b!"OpenAction", b!"AA", b!"XFA", b!"EmbeddedFiles"], d.get? k = none := by decide +kernel
    have hk := key e he o hoe d hd
    have hdict : ∀ k ∈ [b!"A", b!"OpenAction", b!"AA", b!"XFA", b!"EmbeddedFiles"], (viewOf attachedEdits).dict d k = none := fun k h => by rw [View.dict, View.at_, hk k h]; rfl
    refine ⟨fun a ha => ?_, by rw [View.streamAt, hk _ (by simp)]; rfl, by rw [View.array, View.at_, hk _ (by simp)]; rfl, hdict _ (by simp)⟩
    cases ha with
    | action h => rw [hdict _ (by simp)] at h; cases h
    | openAction h => rw [hdict _ (by simp)] at h; cases h
    | additional h _ _ => rw [hdict _ (by simp)] at h; cases h)
  exact ⟨this.1, this.2.2⟩

/-- A document that starts a program when it is opened. -/
def startEdits : List Edit := [⟨[⟨1, 0, .dict [(b!"OpenAction", .dict [(b!"S", .name b!"Launch"), (b!"F", .str b!"c.exe")])], none⟩], [0]⟩]

theorem startEdits_check : documentB startEdits = true := by decide +kernel

/-- **C87 fails** for programs given by a string: commands.txt is empty. -/
theorem C87_false {sys : Sys} (ext : Ext) (hf : sys.input = some (fileText 1 startEdits)) (hc : ∀ h, sys.canCreate h = true) (pw : Bytes) :
    ∃ us, docText docHead us = fileText 1 startEdits ∧ Document ext.toCodecs docHead us ∧ RightTables (docText docHead us) docHead.length us ∧
      (∃ view n p a, Means us view ∧ meant us n = some p ∧ ∃ d ∈ dictsOf p.obj, ActionOf view d a ∧ Launches view a b!"c.exe" []) ∧
      ∃ r F, (∀ f fx ft, F ≤ f → F ≤ fx → F ≤ ft → parse sys ext (some true) f fx ft pw = r) ∧ r.outcome = .returned none ∧ r.out.commands = [] := by
  obtain ⟨h1, h2, h3, h4, h5, h6, h7, h8⟩ := document_of_check startEdits_check ext.toCodecs
  obtain ⟨r, F, g1, g2, g3⟩ := C75_partial (v := true) (by rw [docText_updates]; exact hf) hc h1 h2 h3 h4 h5 h6 pw
  refine ⟨_, docText_updates 1 startEdits, h1, h2, ⟨viewOf startEdits, 1, _, _, h7, by rw [h8]; rfl, _, List.mem_cons_self .., .openAction rfl, .plain rfl rfl rfl⟩, r, F, g1, g2, ?_⟩
  refine report_noCommand g3 h7 ?_
  intro n p hp d hd
  rw [h8] at hp
  obtain ⟨o, ho, rfl⟩ := Option.map_eq_some_iff.1 hp
  obtain ⟨e, he, hoe⟩ := after_mem ho
  simp only [startEdits, List.mem_singleton] at he
  subst he
  simp only [List.mem_singleton] at hoe
  subst hoe
  have hd' : d = [(b!"OpenAction", .dict [(b!"S", .name b!"Launch"), (b!"F", .str b!"c.exe")])] ∨ d = [(b!"S", .name b!"Launch"), (b!"F", .str b!"c.exe")] := by
    simpa [dictsOf, pieceOf, reread, dictsIn, dictsInValues] using hd
  rcases hd' with rfl | rfl
  · refine ⟨fun a ha => ?_, rfl⟩
    cases ha with
    | action h => cases h
    | openAction h => cases h; exact ⟨rfl, rfl⟩
    | additional h _ _ => cases h
  · refine ⟨fun a ha => ?_, rfl⟩
    cases ha with
    | action h => cases h
    | openAction h => cases h
    | additional h _ _ => cases h

end Pdf.Props
