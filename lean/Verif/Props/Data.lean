import Verif.Props.Urls
import Verif.Spec.OutputDir
/-!
C90: the output directory and files.txt. C87: commands.txt has nothing else.
-/

namespace Pdf.Props
open Pdf Spec

/-! ### What is in the report on a dictionary -/

/-- Where a line of the report comes from. -/
theorem part_cases {ext : Ext} {v : View} {d : Dict} {part : List Write} {w : Write} (hp : Reports ext v d part) (ht : TreesPaired v d) (h : w ∈ part) :
    (∃ a, ActionOf v d a ∧ w ∈ actionReport ext v a) ∨ w ∈ formReport ext v d ∨ (∃ f, InTree v d f ∧ w ∈ fileReport ext v false f) ∨
      (∃ root e o name, v.dict d b!"EmbeddedFiles" = some root ∧ Paired v root ∧ Node v.value root e ∧ ValueIn o (namesOf v.value e) ∧ target v.value o = .str name ∧ w = .file zeros name) ∨
      w.kind = .javascript ∨ w.kind = .contents ∨ w.kind = .urls := by
  obtain ⟨aa, embedded, urls, pages, texts, h1, h2, h3, -, -, rfl⟩ := hp
  simp only [List.mem_append] at h
  rcases h with (((((((h | h) | h) | h) | h) | h) | h) | h) | h
  · obtain ⟨a, ha, h⟩ := List.mem_flatMap.1 h
    exact .inl ⟨a, .action (Option.mem_toList.1 ha), h⟩
  · obtain ⟨a, ha, h⟩ := List.mem_flatMap.1 h
    exact .inl ⟨a, .openAction (Option.mem_toList.1 ha), h⟩
  · obtain ⟨e, he, h⟩ := List.mem_flatMap.1 (h1.mem_iff.1 h)
    obtain ⟨k, hk, h⟩ := List.mem_flatMap.1 h
    obtain ⟨a, ha, h⟩ := List.mem_flatMap.1 h
    exact .inl ⟨a, .additional (Option.mem_toList.1 he) hk (Option.mem_toList.1 ha), h⟩
  · exact .inr (.inl h)
  · rw [embeddedReport] at h
    obtain ⟨o, ho, hw⟩ := List.mem_flatMap.1 h
    rw [Names] at h2
    cases hr : v.dict d b!"EmbeddedFiles" with
    | none => rw [hr] at h2; subst h2; cases ho
    | some root =>
      rw [hr] at h2
      obtain ⟨below, numbers, hn, rfl⟩ := h2
      obtain ⟨V, hV, hb⟩ := hn.blocks
      have hpd := ht root (.inr hr)
      rw [hb] at ho
      obtain ⟨e, he, ho⟩ := value_flatMap (fun d hd => hpd d ((hV d).1 hd)) (alternate_value ho)
      split at hw
      · rename_i name hs
        exact .inr (.inr (.inr (.inl ⟨root, e, o, name, rfl, hpd, (hV e).1 he, ho, hs, List.mem_singleton.1 hw⟩)))
      · rename_i f hf
        exact .inr (.inr (.inl ⟨f, .mk hr hpd ((hV e).1 he) ho hf, hw⟩))
      · cases hw
  · rw [scriptReport] at h
    refine .inr (.inr (.inr (.inr (.inl ?_))))
    split at h
    · rw [List.mem_singleton.1 h]; rfl
    · rw [List.mem_singleton.1 h]; rfl
    · cases h
  · obtain ⟨t, -, rfl⟩ := List.mem_map.1 h
    exact .inr (.inr (.inr (.inr (.inr (.inl rfl)))))
  · refine .inr (.inr (.inr (.inr (.inr (.inr ?_)))))
    rw [uriReport] at h
    split at h
    · rw [List.mem_singleton.1 h]; rfl
    · obtain ⟨u, -, rfl⟩ := List.mem_map.1 h
      rfl
    · cases h
  · refine .inr (.inr (.inr (.inr (.inr (.inr ?_)))))
    rw [urlsReport] at h
    obtain ⟨o, -, h⟩ := List.mem_flatMap.1 h
    split at h
    · rw [List.mem_singleton.1 h]; rfl
    · cases h

theorem string_of_dict {v : View} {a f : Dict} {k : Bytes} (hf : v.dict a k = some f) : v.string a k = none := by
  rw [View.dict] at hf
  rw [View.string]
  cases hx : v.at_ a k with
  | none => rfl
  | some o => rw [hx] at hf; cases o <;> first | rfl | cases hf

/-- Where a line of the report on an action comes from. -/
theorem action_cases {ext : Ext} {v : View} {a : Dict} {w : Write} : w ∈ actionReport ext v a ↔ (∃ name, v.string a b!"F" = some name ∧ w = .file zeros name) ∨
      ∃ k f, (k = b!"F" ∨ k = b!"Win") ∧ v.dict a k = some f ∧ w ∈ fileReport ext v (v.name a b!"S" = some b!"Launch") f := by
  rw [actionReport, List.mem_append]
  constructor
  · rintro (h | h)
    · split at h
      · rename_i name hn
        exact .inl ⟨name, hn, List.mem_singleton.1 h⟩
      · rename_i f _ hf
        exact .inr ⟨_, f, .inl rfl, hf, h⟩
      · cases h
    · obtain ⟨f, hf, h⟩ := List.mem_flatMap.1 h
      exact .inr ⟨_, f, .inr rfl, Option.mem_toList.1 hf, h⟩
  · rintro (⟨name, hn, rfl⟩ | ⟨k, f, rfl | rfl, hf, h⟩)
    · left; rw [hn]; simp
    · left; rw [string_of_dict hf, hf]; exact h
    · right; rw [hf]; simpa using h

/-- A line of the report on a dictionary about its files. -/
theorem files_cases {ext : Ext} {v : View} {d : Dict} {part : List Write} {w : Write} (hp : Reports ext v d part) (ht : TreesPaired v d) (h : w ∈ part) (hk : w.kind = .commands ∨ w.kind = .files ∨ w.kind = .dumped) :
    w ∈ formReport ext v d ∨ (∃ name, w = .file zeros name ∧ NamesFile v d name) ∨
      ∃ f b, FileOf v d f ∧ w ∈ fileReport ext v b f ∧ (b = true → ∃ a k, ActionOf v d a ∧ v.name a b!"S" = some b!"Launch" ∧ (k = b!"F" ∨ k = b!"Win") ∧ v.dict a k = some f) := by
  rcases part_cases hp ht h with ⟨a, ha, h⟩ | h | ⟨f, hf, h⟩ | ⟨root, e, o, name, h1, h2, h3, h4, h5, rfl⟩ | h | h | h
  · rcases action_cases.1 h with ⟨name, hn, rfl⟩ | ⟨k, f, hk, hf, h⟩
    · exact .inr (.inl ⟨name, rfl, .action ha hn⟩)
    · exact .inr (.inr ⟨f, _, .action ha hk hf, h, fun hb => ⟨a, k, ha, by simpa using hb, hk, hf⟩⟩)
  · exact .inl h
  · exact .inr (.inr ⟨f, false, .tree hf, h, by simp⟩)
  · exact .inr (.inl ⟨name, rfl, .tree h1 h2 h3 h4 h5⟩)
  all_goals rw [h] at hk; simp at hk

/-- What is reported on a file specification of a dictionary is in the report, one way or another. -/
theorem file_reported {ext : Ext} {v : View} {d f : Dict} {part : List Write} (hf : FileOf v d f) (hp : Reports ext v d part) : ∃ b, ∀ w ∈ fileReport ext v b f, w ∈ part := by
  cases hf with
  | @action a k ha hk hf => exact ⟨_, fun w hw => ActionOf.reported ha hp w (action_cases.2 (.inr ⟨k, f, hk, hf, hw⟩))⟩
  | tree h =>
    obtain ⟨aa, embedded, urls, pages, texts, -, he, -, -, -, rfl⟩ := hp
    refine ⟨false, fun w hw => ?_⟩
    have := InTree.reported (ext := ext) h he w hw
    simp [this]

theorem form_reported {ext : Ext} {v : View} {d : Dict} {data : Bytes} (h : FormIn v d data) (hd : FormDirect v d) : formReport ext v d = dumped ext b!"form.xml" data := by
  cases h with
  | stream h1 h2 => simp [formReport, View.streamAt, h1, View.streamOf, h2]
  | @streams l h1 h2 =>
    have := hd l h1
    have : v.streamAt d b!"XFA" = none := by rw [View.streamAt, this]; rfl
    rw [formReport, this, h1, h2]

theorem form_cases {ext : Ext} {v : View} {d : Dict} {w : Write} (h : w ∈ formReport ext v d) : ∃ data, w ∈ dumped ext b!"form.xml" data ∧ (data = [] ∨ FormIn v d data) := by
  rw [formReport] at h
  split at h
  · rename_i x hx
    refine ⟨x, h, ?_⟩
    rw [View.streamAt] at hx
    obtain ⟨o, ho, hb⟩ := Option.bind_eq_some_iff.1 hx
    cases o with
    | ref n g =>
      cases hb
      cases hs : v.stream n with
      | none => exact .inl rfl
      | some x => exact .inr (.stream ho (by rw [hs]; rfl))
    | _ => cases hb
  · rename_i l _ hl
    exact ⟨_, h, .inr (.streams hl rfl)⟩
  · cases h

/-- The cases of the report on a file specification that is not a URL. -/
theorem fileReport_cases {ext : Ext} {v : View} {b : Bool} {f : Dict} {w : Write} (h : w ∈ fileReport ext v b f) (hk : w.kind = .commands ∨ w.kind = .files ∨ w.kind = .dumped) :
    (∃ data, w ∈ dumped ext ((v.string f b!"F").getD zeros) data ∧ (data = [] ∨ FileData v f data)) ∨
      ∃ name, Outside v f name ∧ (w = .file zeros name ∨ (∃ p, v.string f b!"P" = some p ∧ w = .command name p) ∨ v.string f b!"P" = none ∧ b = true ∧ w = .command name []) := by
  rw [fileReport] at h
  split at h
  · obtain ⟨u, -, rfl⟩ := List.mem_map.1 h
    simp [Write.kind] at hk
  · rename_i hu
    split at h
    · rename_i _ _ ef hef
      refine .inl ⟨_, h, ?_⟩
      cases hx : v.streamAt ef b!"F" with
      | none => exact .inl rfl
      | some x =>
        rw [View.streamAt] at hx
        obtain ⟨o, ho, hb⟩ := Option.bind_eq_some_iff.1 hx
        cases o with
        | ref n g =>
          cases hb
          cases hs : v.stream n with
          | none => exact .inl rfl
          | some x => exact .inr (.mk hu hef ho (by rw [hs]; rfl))
        | _ => cases hb
    · rename_i name p h1 h2 h3
      refine .inr ⟨name, ⟨hu, h1, h2⟩, ?_⟩
      simp only [List.mem_cons, List.not_mem_nil, or_false] at h
      exact h.imp id fun h => .inl ⟨p, h3, h⟩
    · rename_i name h1 h2 h3
      refine .inr ⟨name, ⟨hu, h1, h2⟩, ?_⟩
      cases b with
      | false => simp at h; exact .inl h
      | true =>
        simp at h
        rcases h with h | h
        · exact .inr (.inr ⟨h3, rfl, h⟩)
        · exact .inl h
    · cases h

/-- A command in the report. -/
theorem reported_command {ext : Ext} {v : View} {d : Dict} {part : List Write} {name p : Bytes} (hp : Reports ext v d part) (ht : TreesPaired v d) (h : .command name p ∈ part) : CommandIn v d name p := by
  rcases files_cases hp ht h (.inl rfl) with h | ⟨_, h, -⟩ | ⟨f, b, hf, h, hb⟩
  · obtain ⟨data, h, -⟩ := form_cases h
    simp [dumped] at h
  · cases h
  · rcases fileReport_cases h (.inl rfl) with ⟨data, h, -⟩ | ⟨name', ho, h | ⟨p', h1, h2⟩ | ⟨h1, rfl, h2⟩⟩
    · simp [dumped] at h
    · cases h
    · cases h2
      exact .file hf ho h1
    · cases h2
      obtain ⟨a, k, ha, hs, hk, hkf⟩ := hb rfl
      exact .launch ha (.mk hs hk hkf ho.1 ho.2.1 ho.2.2 (by rw [h1]; rfl))

theorem command_reported {ext : Ext} {v : View} {d : Dict} {part : List Write} {name p : Bytes} (h : CommandIn v d name p) (hp : Reports ext v d part) : .command name p ∈ part := by
  cases h with
  | launch ha hs => exact ActionOf.reported ha hp _ hs.reported
  | file hf ho hP =>
    obtain ⟨b, hb⟩ := file_reported hf hp
    refine hb _ ?_
    rw [fileReport, if_neg ho.1, ho.2.1, ho.2.2, hP]
    simp

theorem holds_reported {ext : Ext} {v : View} {d : Dict} {part : List Write} {name data : Bytes} (h : HoldsFile v d name data) (hd : FormDirect v d) (hp : Reports ext v d part) : ∀ w ∈ dumped ext name data, w ∈ part := by
  cases h with
  | form h hn =>
    subst hn
    rw [← form_reported h hd]
    obtain ⟨aa, embedded, urls, pages, texts, -, he, -, -, -, rfl⟩ := hp
    intro w hw
    simp [hw]
  | file hf h hn =>
    subst hn
    obtain ⟨b, hb⟩ := file_reported hf hp
    rw [← FileData.dumped (b := b) h]
    exact hb

theorem names_reported {ext : Ext} {v : View} {d : Dict} {part : List Write} {name : Bytes} (h : NamesFile v d name) (hp : Reports ext v d part) : .file zeros name ∈ part := by
  cases h with
  | action ha hn => exact ActionOf.reported ha hp _ (action_cases.2 (.inl ⟨name, hn, rfl⟩))
  | @tree root e o hr h2 he ho hs =>
    obtain ⟨aa, embedded, urls, pages, texts, -, hl, -, -, -, rfl⟩ := hp
    rw [Names, hr] at hl
    obtain ⟨below, numbers, hn, rfl⟩ := hl
    obtain ⟨V, hV, hb⟩ := hn.blocks
    have : .file zeros name ∈ embeddedReport ext v (namesOf v.value root ++ below) := by
      rw [embeddedReport, hb]
      exact List.mem_flatMap.2 ⟨_, (ho.flatMap ((hV _).2 he) fun d hd => h2 d ((hV d).1 hd)).alternate, by rw [hs]; simp⟩
    simp [this]
  | @file f hf ho =>
    obtain ⟨b, hb⟩ := file_reported hf hp
    refine hb _ ?_
    rw [fileReport, if_neg ho.1, ho.2.1, ho.2.2]
    cases v.string f b!"P" <;> simp

/-- A file in the report. -/
theorem reported_dump {ext : Ext} {v : View} {d : Dict} {part : List Write} {h data : Bytes} (hp : Reports ext v d part) (ht : TreesPaired v d) (hw : .dump h data ∈ part) : data = [] ∨ ∃ name, HoldsFile v d name data := by
  rcases files_cases hp ht hw (.inr (.inr rfl)) with h | ⟨_, h, -⟩ | ⟨f, b, hf, h, hb⟩
  · obtain ⟨data, h, hd⟩ := form_cases h
    simp only [dumped, List.mem_cons, reduceCtorEq, List.not_mem_nil, or_false, false_or, Write.dump.injEq] at h
    obtain ⟨-, rfl⟩ := h
    exact hd.imp id fun hd => ⟨_, .form hd rfl⟩
  · cases h
  · rcases fileReport_cases h (.inr (.inr rfl)) with ⟨data, h, hd⟩ | ⟨name', ho, h | ⟨p', h1, h2⟩ | ⟨h1, rfl, h2⟩⟩
    · simp only [dumped, List.mem_cons, reduceCtorEq, List.not_mem_nil, or_false, false_or, Write.dump.injEq] at h
      obtain ⟨-, rfl⟩ := h
      exact hd.imp id fun hd => ⟨_, .file hf hd rfl⟩
    · cases h
    · cases h2
    · cases h2

/-- A line of files.txt in the report. -/
theorem reported_file {ext : Ext} {v : View} {d : Dict} {part : List Write} {h name : Bytes} (hp : Reports ext v d part) (ht : TreesPaired v d) (hw : .file h name ∈ part) :
    h = zeros ∧ NamesFile v d name ∨ h = hexText (ext.md5 []) ∨ ∃ data, h = hexText (ext.md5 data) ∧ HoldsFile v d name data := by
  rcases files_cases hp ht hw (.inr (.inl rfl)) with h | ⟨_, h, hn⟩ | ⟨f, b, hf, h, hb⟩
  · obtain ⟨data, h, hd⟩ := form_cases h
    simp only [dumped, List.mem_cons, reduceCtorEq, List.not_mem_nil, or_false, Write.file.injEq] at h
    obtain ⟨rfl, rfl⟩ := h
    rcases hd with rfl | hd
    · exact .inr (.inl rfl)
    · exact .inr (.inr ⟨data, rfl, .form hd rfl⟩)
  · cases h
    exact .inl ⟨rfl, hn⟩
  · rcases fileReport_cases h (.inr (.inl rfl)) with ⟨data, h, hd⟩ | ⟨name', ho, h | ⟨p', h1, h2⟩ | ⟨h1, rfl, h2⟩⟩
    · simp only [dumped, List.mem_cons, reduceCtorEq, List.not_mem_nil, or_false, Write.file.injEq] at h
      obtain ⟨rfl, rfl⟩ := h
      rcases hd with rfl | hd
      · exact .inr (.inl rfl)
      · exact .inr (.inr ⟨data, rfl, .file hf hd rfl⟩)
    · cases h
      exact .inl ⟨rfl, .file hf ho⟩
    · cases h2
    · cases h2

/-! ### The report -/

theorem dumpInto_from {ws : List Write} : ∀ {m : Assoc Bytes Bytes} {h d : Bytes}, (ws.foldl Write.dumpInto m).get? h = some d → .dump h d ∈ ws ∨ m.get? h = some d := by
  induction ws with
  | nil => intro m h d hg; exact .inr hg
  | cons w ws ih =>
    intro m h d hg
    rcases ih hg with hg | hg
    · exact .inl (List.mem_cons_of_mem _ hg)
    · cases w with
      | dump h' d' =>
        rw [Write.dumpInto, Assoc.get?_set] at hg
        split at hg
        · rename_i he
          cases hg
          subst he
          exact .inl (List.mem_cons_self ..)
        · exact .inr hg
      | _ => exact .inr hg

/-- The programs among the writes. -/
def commandsOf (ws : List Write) : List (Bytes × Bytes) := ws.filterMap fun | .command f p => some (f, p) | _ => none

/-- The lines of files.txt among the writes. -/
def filesOf (ws : List Write) : List (Bytes × Bytes) := ws.filterMap fun | .file h n => some (h, n) | _ => none

theorem report_commands {us : List Update} {ext : Ext} {r : ParseResult} (h2 : ∀ view, Means us view → ∃ l ws, l.Nodup ∧ (∀ n, n ∈ l ↔ (meant us n).isSome) ∧ Holds r.out ws ∧
      Parts (fun n part => ∃ p, meant us n = some p ∧ ObjectReport ext view p.obj part) l (visible ws)) {view : View} (hv : Means us view) : CommandsOf us view r.out := by
  obtain ⟨l, ws, -, h3, h4, h5⟩ := h2 view hv
  refine ⟨commandsOf ws, ?_, fun d hd name p hc => ?_, fun ht p hp => ?_⟩
  · rw [h4.commands, commandsOf]
    clear h4 h5
    induction ws with
    | nil => rfl
    | cons w ws ih =>
      rw [List.flatMap_cons, ih]
      cases w <;> simp [Write.commandsTxt]
  · obtain ⟨n, q, hm, hd⟩ := hd
    obtain ⟨part, hp, hw⟩ := part_has h5 ((h3 n).2 (by rw [hm]; rfl)) hm hd
    exact List.mem_filterMap.2 ⟨.command name p, hw _ (command_reported hc hp), rfl⟩
  · obtain ⟨w, hw, he⟩ := List.mem_filterMap.1 hp
    cases w with
    | command f q =>
      cases he
      obtain ⟨n, p, hm, d, hd, part, hp, hw⟩ := written_iff h3 h5 (by simp [Write.kind]) (by simp [Write.kind]) hw
      exact ⟨d, ⟨n, p, hm, hd⟩, reported_command hp (ht d ⟨n, p, hm, hd⟩) hw⟩
    | _ => cases he

theorem report_data {us : List Update} {ext : Ext} {r : ParseResult} (h1 : ContentAddressed ext r.out) (h2 : ∀ view, Means us view → ∃ l ws, l.Nodup ∧ (∀ n, n ∈ l ↔ (meant us n).isSome) ∧ Holds r.out ws ∧
      Parts (fun n part => ∃ p, meant us n = some p ∧ ObjectReport ext view p.obj part) l (visible ws)) {view : View} (hv : Means us view) : FilesOf ext us view r.out := by
  obtain ⟨l, ws, -, h3, h4, h5⟩ := h2 view hv
  have has : ∀ d, DictIn us d → ∃ part, Reports ext view d part ∧ ∀ w ∈ part, w ∈ ws := by
    rintro d ⟨n, p, hm, hd⟩
    exact part_has h5 ((h3 n).2 (by rw [hm]; rfl)) hm hd
  refine ⟨fun d hd hf name data hh => ?_, fun ht h data hg => ⟨h1.1 _ _ hg, ?_⟩, filesOf ws, ?_, fun d hd hf name data hh => ?_, fun d hd name hn => ?_, fun ht l hl => ?_⟩
  · obtain ⟨part, hp, hw⟩ := has d hd
    obtain ⟨data', hx⟩ := Option.isSome_iff_exists.1 (dumpInto_mem (hw _ (holds_reported hh hf hp (.dump (hexText (ext.md5 data)) data) (by simp [Spec.dumped]))) (m := []))
    rw [← h4.dumped] at hx
    exact ⟨data', hx, (hexText_inj (h1.1 _ _ hx)).symm⟩
  · rw [h4.dumped] at hg
    rcases dumpInto_from hg with hw | hw
    · obtain ⟨n, p, hm, d, hd, part, hp, hw⟩ := written_iff h3 h5 (by simp [Write.kind]) (by simp [Write.kind]) hw
      exact (reported_dump hp (ht d ⟨n, p, hm, hd⟩) hw).imp id fun ⟨name, h⟩ => ⟨d, name, ⟨n, p, hm, hd⟩, h⟩
    · cases hw
  · rw [h4.files, filesOf]
    clear h4 h5 has
    induction ws with
    | nil => rfl
    | cons w ws ih =>
      rw [List.flatMap_cons, ih]
      cases w <;> simp [Write.filesTxt]
  · obtain ⟨part, hp, hw⟩ := has d hd
    exact List.mem_filterMap.2 ⟨.file _ _, hw _ (holds_reported hh hf hp (.file (hexText (ext.md5 data)) name) (by simp [Spec.dumped])), rfl⟩
  · obtain ⟨part, hp, hw⟩ := has d hd
    exact List.mem_filterMap.2 ⟨.file _ _, hw _ (names_reported hn hp), rfl⟩
  · obtain ⟨w, hw, he⟩ := List.mem_filterMap.1 hl
    cases w with
    | file h name =>
      cases he
      obtain ⟨n, p, hm, d, hd, part, hp, hw⟩ := written_iff h3 h5 (by simp [Write.kind]) (by simp [Write.kind]) hw
      rcases reported_file hp (ht d ⟨n, p, hm, hd⟩) hw with h | h | h
      · exact .inr ⟨d, ⟨n, p, hm, hd⟩, .inl h⟩
      · exact .inl h
      · exact .inr ⟨d, ⟨n, p, hm, hd⟩, .inr h⟩
    | _ => cases he

/-! ### C87, C90 -/

section
variable {sys : Sys} {P : Bytes} {us : List Update} {ext : Ext} {v : Bool}

/-- **C87, partial** commands.txt has exactly the programs that actions of the document start, and those of its file specifications with parameters. Missing:
programs given by a string (`C87_false`); that nothing else is there is for documents in whose name trees names and values alternate; as for `C75_partial`. -/
theorem C87_only_partial (hf : sys.input = some (docText P us)) (hc : ∀ h, sys.canCreate h = true)
    (hd : Document ext.toCodecs P us) (hr : RightTables (docText P us) P.length us) (henc : trailerFor us b!"Encrypt" = none) (henc' : ∀ d, FirstDict us.tail d → d.get? b!"Encrypt" = none)
    (hk : KidsEnd us) (hs : StreamsLoad us) (pw : Bytes) :
    ∃ r F, (∀ f fx ft, F ≤ f → F ≤ fx → F ≤ ft → parse sys ext (some v) f fx ft pw = r) ∧ ∀ view, Means us view → CommandsOf us view r.out := by
  obtain ⟨r, F, h1, -, h2⟩ := C75_partial (v := v) hf hc hd hr henc henc' hk hs pw
  exact ⟨r, F, h1, fun view hv => report_commands h2 hv⟩

/-- **C90, partial** The files of a document, and the data of its forms, are in the output directory under their MD5, and in files.txt; and nothing else is. Missing:
data of forms in an array that is given by reference (`C90_false`); files of annotations (`C86_false`); that nothing else is there is for documents in whose name trees
names and values alternate; as for `C75_partial`. -/
theorem C90_partial (hf : sys.input = some (docText P us)) (hc : ∀ h, sys.canCreate h = true)
    (hd : Document ext.toCodecs P us) (hr : RightTables (docText P us) P.length us) (henc : trailerFor us b!"Encrypt" = none) (henc' : ∀ d, FirstDict us.tail d → d.get? b!"Encrypt" = none)
    (hk : KidsEnd us) (hs : StreamsLoad us) (pw : Bytes) :
    ∃ r F, (∀ f fx ft, F ≤ f → F ≤ fx → F ≤ ft → parse sys ext (some v) f fx ft pw = r) ∧ ∀ view, Means us view → FilesOf ext us view r.out := by
  obtain ⟨r, F, h1, -, h2⟩ := C75_partial (v := v) hf hc hd hr henc henc' hk hs pw
  have ha : ContentAddressed ext r.out := by rw [← h1 F F F (Nat.le_refl _) (Nat.le_refl _) (Nat.le_refl _)]; exact C54_parse ..
  exact ⟨r, F, h1, fun view hv => report_data ha h2 hv⟩

/-- **C87 and C90, partial** The same for encrypted documents, with the user password. Missing: as for `C76_report_partial`, `C87_only_partial` and `C90_partial`. -/
theorem C90_secret_partial {c : Secrecy} {skip : Option Int} {enc : Dict} {sd : StdDict} {pw : Bytes} (hf : sys.input = some (docText P us)) (hc : ∀ h, sys.canCreate h = true)
    (hd : Document (Reading.secret ext.md5 rc4 ext.toCodecs c skip) P us) (hr : RightTables (docText P us) P.length us) (ht : Typed us) (he : EncryptAt us enc skip) (hs : StdEntries us enc sd)
    (hp : UserPassword ext.md5 rc4 sd pw) (hk : Keys ext.md5 enc sd pw c) (hki : KidsEnd us) (hst : StreamsLoad us) :
    ∃ r F, (∀ f fx ft, F ≤ f → F ≤ fx → F ≤ ft → parse sys ext (some v) f fx ft pw = r) ∧ ∀ view, Means us view → CommandsOf us view r.out ∧ FilesOf ext us view r.out := by
  obtain ⟨r, F, h1, -, h2, -⟩ := C76_report_partial (v := v) hf hc hd hr ht he hs hp hk hki hst
  have ha : ContentAddressed ext r.out := by rw [← h1 F F F (Nat.le_refl _) (Nat.le_refl _) (Nat.le_refl _)]; exact C54_parse ..
  exact ⟨r, F, h1, fun view hv => ⟨report_commands h2 hv, report_data ha h2 hv⟩⟩

end

/-! ### Documents -/

/-- A document with a form in two streams, and a link at `[72.5 100.1 200 200.9]` with a text in which the word `obj` occurs. -/
def formEdits : List Edit := [⟨[
  ⟨1, 0, .dict [(b!"AcroForm", .dict [(b!"XFA", .arr [.str b!"a", .ref 2 0, .str b!"b", .ref 3 0])])], none⟩,
  ⟨2, 0, .dict [(b!"Length", .num (.fin 3))], some b!"<x>"⟩,
  ⟨3, 0, .dict [(b!"Length", .num (.fin 4))], some b!"</x>"⟩,
  ⟨4, 0, .dict [(b!"A", .dict [(b!"S", .name b!"Launch"), (b!"Win", .dict [(b!"F", .str b!"c.exe"), (b!"P", .str b!"/q")])]),
    (b!"Rect", .arr [.num (roundQ (mkRat 725 10)), .num (roundQ (mkRat (1001) 10)), .num (.fin 200), .num (roundQ (mkRat 2009 10))]),
    (b!"Contents", .str b!"object 4, but obj 4 obj")], none⟩], [0]⟩]

theorem formEdits_check : documentB formEdits = true := by decide +kernel

example (sys : Sys) (ext : Ext) (hf : sys.input = some (fileText 1 formEdits)) (hc : ∀ h, sys.canCreate h = true) (pw : Bytes) :
    ∃ r F, (∀ f fx ft, F ≤ f → F ≤ fx → F ≤ ft → parse sys ext (some true) f fx ft pw = r) ∧
      ∃ data', r.out.dumped.get? (hexText (ext.md5 b!"<x></x>")) = some data' ∧ ext.md5 data' = ext.md5 b!"<x></x>" := by
  obtain ⟨h1, h2, h3, h4, h5, h6, h7, h8⟩ := document_of_check formEdits_check ext.toCodecs
  obtain ⟨r, F, g1, g2⟩ := C90_partial (v := true) (by rw [docText_updates]; exact hf) hc h1 h2 h3 h4 h5 h6 pw
  refine ⟨r, F, g1, (g2 _ h7).1 [(b!"XFA", .arr [.str b!"a", .ref 2 0, .str b!"b", .ref 3 0])] ⟨1, _, by rw [h8]; rfl, ?_⟩ ?_ b!"form.xml" b!"<x></x>" (.form (.streams rfl rfl) rfl)⟩
  · show _ ∈ dictsIn _
    simp [dictsIn, dictsInValues]
  · intro l hl
    cases hl
    rfl

example (sys : Sys) (ext : Ext) (hf : sys.input = some (fileText 1 formEdits)) (hc : ∀ h, sys.canCreate h = true) (pw : Bytes) :
    ∃ r F, (∀ f fx ft, F ≤ f → F ≤ fx → F ≤ ft → parse sys ext (some true) f fx ft pw = r) ∧ ∃ x y, r.out.commands = x ++ (b!"c.exe /q\n" ++ y) := by
  obtain ⟨h1, h2, h3, h4, h5, h6, h7, h8⟩ := document_of_check formEdits_check ext.toCodecs
  obtain ⟨r, F, g1, g2⟩ := C87_only_partial (v := true) (by rw [docText_updates]; exact hf) hc h1 h2 h3 h4 h5 h6 pw
  obtain ⟨programs, k1, k2, -⟩ := g2 _ h7
  have := k2 _ ⟨4, _, by rw [h8]; rfl, List.mem_cons_self ..⟩ b!"c.exe" b!"/q" (.launch (.action rfl) (.mk rfl (.inr rfl) rfl (by decide) rfl rfl rfl))
  obtain ⟨x, y, rfl⟩ := List.append_of_mem this
  exact ⟨r, F, g1, _, _, by rw [k1]; simp; rfl⟩

/-- A document with a form in an array that is given by reference. -/
def formRefEdits : List Edit := [⟨[
  ⟨1, 0, .dict [(b!"XFA", .ref 2 0)], none⟩,
  ⟨2, 0, .arr [.str b!"a", .ref 3 0], none⟩,
  ⟨3, 0, .dict [(b!"Length", .num (.fin 4))], some b!"<x/>"⟩], [0]⟩]

theorem formRefEdits_check : documentB formRefEdits = true := by decide +kernel

/-- Without the keys of actions and embedded files there are no file specifications. -/
theorem no_files {v : View} {d : Dict} (hk : ∀ k ∈ [b!"A", b!"OpenAction", b!"AA", b!"EmbeddedFiles"], d.get? k = none) (f : Dict) : ¬ FileOf v d f := by
  have hd : ∀ k ∈ [b!"A", b!"OpenAction", b!"AA", b!"EmbeddedFiles"], v.dict d k = none := fun k h => by rw [View.dict, View.at_, hk k h]; rfl
  intro h
  cases h with
  | action ha =>
    cases ha with
    | action h => rw [hd _ (by simp)] at h; cases h
    | openAction h => rw [hd _ (by simp)] at h; cases h
    | additional h => rw [hd _ (by simp)] at h; cases h
  | tree h =>
    obtain ⟨h, -⟩ := h
    rw [hd _ (by simp)] at h
    cases h

/-- **C90 fails** for the data of a form in an array that is given by reference: all files in the output directory are empty. -/
theorem C90_false {sys : Sys} (ext : Ext) (hf : sys.input = some (fileText 1 formRefEdits)) (hc : ∀ h, sys.canCreate h = true) (pw : Bytes) :
    ∃ us, docText docHead us = fileText 1 formRefEdits ∧ Document ext.toCodecs docHead us ∧ RightTables (docText docHead us) docHead.length us ∧
      (∃ view d, Means us view ∧ DictIn us d ∧ FormIn view d b!"<x/>") ∧
      ∃ r F, (∀ f fx ft, F ≤ f → F ≤ fx → F ≤ ft → parse sys ext (some true) f fx ft pw = r) ∧ r.outcome = .returned none ∧ ∀ h data, r.out.dumped.get? h = some data → data = [] := by
  obtain ⟨h1, h2, h3, h4, h5, h6, h7, h8⟩ := document_of_check formRefEdits_check ext.toCodecs
  obtain ⟨r, F, g1, g2, g3⟩ := C75_partial (v := true) (by rw [docText_updates]; exact hf) hc h1 h2 h3 h4 h5 h6 pw
  refine ⟨_, docText_updates 1 formRefEdits, h1, h2, ⟨viewOf formRefEdits, _, h7, ⟨1, _, by rw [h8]; rfl, List.mem_cons_self ..⟩, .streams rfl rfl⟩, r, F, g1, g2, fun h data hg => ?_⟩
  obtain ⟨l, ws, -, k3, k4, k5⟩ := g3 _ h7
  rw [k4.dumped] at hg
  rcases dumpInto_from hg with hw | hw
  · obtain ⟨n, p, hm, d, hd, part, hp, hw⟩ := written_iff k3 k5 (by simp [Write.kind]) (by simp [Write.kind]) hw
    rw [h8] at hm
    obtain ⟨o, ho, rfl⟩ := Option.map_eq_some_iff.1 hm
    obtain ⟨e, he, hoe⟩ := after_mem ho
    have key : ∀ e ∈ formRefEdits, ∀ o ∈ e.puts, ∀ d ∈ dictsOf (pieceOf o).obj, ∀ k ∈ [b!"A", b!"OpenAction", b!"AA", b!"EmbeddedFiles", b!"URLS"], d.get? k = none := by decide +kernel
    have keyf : ∀ e ∈ formRefEdits, ∀ o ∈ e.puts, ∀ d ∈ dictsOf (pieceOf o).obj, d.get? b!"XFA" = none ∨ d.get? b!"XFA" = some (.ref 2 0) := by decide +kernel
    have hk := key e he o hoe d hd
    have ht : TreesPaired (viewOf formRefEdits) d := by
      intro root hr
      rw [View.dict, View.at_, hk _ (by simp), View.dict, View.at_, hk _ (by simp)] at hr
      rcases hr with hr | hr <;> cases hr
    rcases files_cases hp ht hw (.inr (.inr rfl)) with h | ⟨_, h, -⟩ | ⟨f, b, hf, -⟩
    · rw [formReport, View.array, View.at_, View.streamAt] at h
      rcases keyf e he o hoe d hd with hx | hx
      · rw [hx] at h
        cases h
      · rw [hx] at h
        have e2 : (viewOf formRefEdits).stream 2 = none := by decide +kernel
        simp only [Option.bind_some, View.streamOf, e2, dumped, List.mem_cons, reduceCtorEq, List.not_mem_nil, or_false, false_or, Write.dump.injEq, Option.getD_none] at h
        exact h.2
    · cases h
    · exact absurd hf (no_files (fun k h => hk k (by grind)) f)
  · cases hw

end Pdf.Props
