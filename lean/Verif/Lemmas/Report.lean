import Verif.Props.Extract
import Verif.Props.Tree
import Verif.Props.Main
import Verif.Spec.Report
/-!
The report on a dictionary.
-/

namespace Pdf.Props
open Pdf Spec St

/-- Every run that returns adds to the report something that satisfies `Q`, and perhaps messages about
abnormalities. -/
def Vis (x : X Unit) (Q : List Write → Prop) : Prop := Post x fun _ ws => Q (visible ws)

theorem Adds.vis {x : X Unit} {vs : List Write} (h : Adds x vs) : Vis x (· = vs) := fun s u s' hr => h s s' hr
theorem Vis.adds {x : X Unit} {vs : List Write} (h : Vis x (· = vs)) : Adds x vs := fun s s' hr => h s () s' hr
theorem Vis.mono {x : X Unit} {Q Q' : List Write → Prop} (h : Vis x Q) (hq : ∀ ws, Q ws → Q' ws) : Vis x Q' := Post.mono h fun _ _ => hq _

theorem Vis.bind {x : X Unit} {k : Unit → X Unit} {P Q R : List Write → Prop} (hx : Vis x P) (hk : Vis (k ()) Q) (h : ∀ a b, P a → Q b → R (a ++ b)) : Vis (x >>= k) R :=
  Post.bind hx fun _ ws hp => Post.mono hk fun _ vs hq => by rw [visible_append]; exact h _ _ hp hq

theorem Vis.lift {α : Type} {x : M α} {k : α → X Unit} {Q : List Write → Prop} (hx : LogFree x) (hk : ∀ a s s', x s = .ok (a, s') → Vis (k a) Q) : Vis (liftX x >>= k) Q := by
  intro s u s' hr
  obtain ⟨a, t, h1, h2⟩ := bind_ok hr
  obtain ⟨ws, hw, hq, -⟩ := Post.liftX hx s a t h1
  have hrun : ∃ s1, x s.ps = .ok (a, s1) := by
    rw [liftX] at h1
    cases hx' : x s.ps with
    | ok p => rw [hx'] at h1; cases h1; exact ⟨_, rfl⟩
    | panic w => rw [hx'] at h1; cases h1
    | oof => rw [hx'] at h1; cases h1
  obtain ⟨s1, hrun⟩ := hrun
  obtain ⟨vs, hv, hq'⟩ := hk a _ _ hrun t u s' h2
  exact ⟨ws ++ vs, hw.trans hv, by show Q (visible (ws ++ vs)); rw [visible_append, visible_quiet hq]; exact hq'⟩

theorem Vis.pure {Q : List Write → Prop} (h : Q []) : Vis (Pure.pure ()) Q := Post.pure h

section
variable {rs : Resolver} {v : View} (hv : v.Of rs)
include hv

theorem view_graph : Graph rs v.value := fun n s o s' h => (hv n s o s' h).1

theorem view_at (d : Dict) (k : Bytes) : Reads (Dict.getObject rs d k) (v.at_ d k) := by
  intro s a s' h
  rw [Dict.getObject] at h
  rw [View.at_]
  cases hk : d.get? k with
  | none => rw [hk] at h; cases h; rfl
  | some o =>
    rw [hk] at h
    obtain ⟨b, s1, h1, h2⟩ := bind_ok h
    cases h2
    rw [Option.map_some]
    congr 1
    cases o with
    | ref n gen =>
      obtain ⟨i, s2, h3, h4⟩ := bind_ok h1
      cases h4
      exact (hv _ _ _ _ h3).1
    | _ => cases h1; rfl

theorem view_dict (d : Dict) (k : Bytes) : Reads (Dict.getDict rs d k) (v.dict d k) := by
  intro s a s' h
  obtain ⟨b, s1, h1, h2⟩ := bind_ok h
  cases h2
  rw [view_at hv d k _ _ _ h1, View.dict]
  cases v.at_ d k with
  | none => rfl
  | some o => cases o <;> rfl
theorem view_string (d : Dict) (k : Bytes) : Reads (Dict.getString rs d k) (v.string d k) := by
  intro s a s' h
  obtain ⟨b, s1, h1, h2⟩ := bind_ok h
  cases h2
  rw [view_at hv d k _ _ _ h1, View.string]
  cases v.at_ d k with
  | none => rfl
  | some o => cases o <;> rfl
theorem view_name (d : Dict) (k : Bytes) : Reads (Dict.getName rs d k) (v.name d k) := by
  intro s a s' h
  obtain ⟨b, s1, h1, h2⟩ := bind_ok h
  cases h2
  rw [view_at hv d k _ _ _ h1, View.name]
  cases v.at_ d k with
  | none => rfl
  | some o => cases o <;> rfl
theorem view_array (d : Dict) (k : Bytes) : Reads (Dict.getArray rs d k) (v.array d k) := by
  intro s a s' h
  obtain ⟨b, s1, h1, h2⟩ := bind_ok h
  cases h2
  rw [view_at hv d k _ _ _ h1, View.array]
  cases v.at_ d k with
  | none => rfl
  | some o => cases o <;> rfl

/-- the data of a stream; nothing and no data are the same -/
theorem view_stream {d : Dict} {k : Bytes} {s s' : PS} {a : Option (Option Bytes)} (h : Dict.getStream rs d k s = .ok (a, s')) : a.map (·.getD []) = v.streamAt d k := by
  rw [Dict.getStream] at h
  rw [View.streamAt]
  cases hk : d.get? k with
  | none => rw [hk] at h; cases h; rfl
  | some o =>
    rw [hk] at h
    cases o with
    | ref n gen =>
      obtain ⟨i, s2, h3, h4⟩ := bind_ok h
      cases h4
      rw [(hv _ _ _ _ h3).2]; rfl
    | _ => cases h; rfl

theorem view_arr {l : List Obj} {i : Nat} {o : Obj} (hi : l[i]? = some o) : Reads (Arr.getObject rs l i) (some (target v.value o)) := by
  intro s a s' h
  rw [Arr.getObject, if_neg (by omega), Int.toNat_natCast, hi] at h
  obtain ⟨b, s1, h1, h2⟩ := bind_ok h
  cases h2
  congr 1
  cases o with
  | ref n gen =>
    obtain ⟨i, s2, h3, h4⟩ := bind_ok h1
    cases h4
    exact (hv _ _ _ _ h3).1
  | _ => cases h1; rfl

theorem view_arr_string {l : List Obj} {i : Nat} {o : Obj} (hi : l[i]? = some o) : Reads (Arr.getString rs l i) (Obj.asStr? (target v.value o)) := by
  intro s a s' h
  obtain ⟨b, s1, h1, h2⟩ := bind_ok h
  cases h2
  rw [view_arr hv hi _ _ _ h1]; rfl
theorem view_arr_dict {l : List Obj} {i : Nat} {o : Obj} (hi : l[i]? = some o) : Reads (Arr.getDict rs l i) (Obj.asDict? (target v.value o)) := by
  intro s a s' h
  obtain ⟨b, s1, h1, h2⟩ := bind_ok h
  cases h2
  rw [view_arr hv hi _ _ _ h1]; rfl

theorem view_arr_stream {l : List Obj} {i : Nat} {o : Obj} (hi : l[i]? = some o) {s s' : PS} {a : Option (Option Bytes)} (h : Arr.getStream rs l i s = .ok (a, s')) :
    a.map (·.getD []) = v.streamOf o := by
  rw [Arr.getStream, if_neg (by omega), Int.toNat_natCast, hi] at h
  cases o with
  | ref n gen =>
    obtain ⟨i, s2, h3, h4⟩ := bind_ok h
    cases h4
    rw [(hv _ _ _ _ h3).2]; rfl
  | _ => cases h; rfl

variable (hrs : ∀ n, LogFree (rs n)) {ext : Ext}
include hrs

omit hv hrs in
theorem adds_dumped (name data : Bytes) : Adds (dumpFile ext name data) (dumped ext name data) := by
  have h := adds_of (Post.dumpFile ext name data) (by simp [Write.kind])
  rw [hexEncode_eq] at h
  exact h

theorem file_report (c : Bool) (d : Dict) : Adds (fileExtract ext rs d c) (fileReport ext v c d) := by
  have hcl := logFree_cl hrs
  rw [fileReport]
  by_cases hu : v.string d b!"FS" = some b!"URL"
  · rw [if_pos hu]
    have h1 := view_string hv d b!"FS"
    rw [hu] at h1
    have h2 := view_string hv d b!"F"
    cases hf : v.string d b!"F" with
    | none => rw [hf] at h2; exact C48_url_none hrs c h1 h2
    | some f => rw [hf] at h2; exact C48_url hrs c h1 h2
  · rw [if_neg hu]
    have h1 := view_string hv d b!"FS"
    have h2 := view_string hv d b!"F"
    have h3 := view_string hv d b!"P"
    have h4 := view_dict hv d b!"EF"
    cases he : v.dict d b!"EF" with
    | some ef =>
      rw [he] at h4
      dsimp only
      rw [fileExtract]
      refine adds_lift (hcl.dictString _ _) h1 ?_
      dsimp only
      rw [if_neg (not_url hrs h1 hu)]
      refine adds_lift (hcl.dictDict _ _) h4 (Vis.adds (Vis.lift (hcl.dictStream _ _) fun data s s' hr => ?_))
      have hd : (data.getD none).getD [] = (v.streamAt ef b!"F").getD [] := by
        rw [← view_stream hv hr]
        cases data <;> rfl
      rw [hd]
      exact (adds_lift (hcl.dictString _ _) h2 (adds_dumped _ _)).vis
    | none =>
      rw [he] at h4
      cases hf : v.string d b!"F" with
      | none => rw [hf] at h2; exact C48_nameless hrs c h1 hu h4 h3 h2
      | some f =>
        rw [hf] at h2
        cases hp : v.string d b!"P" with
        | none => rw [hp] at h3; exact C48_plain hrs c h1 hu h4 h3 h2
        | some p => rw [hp] at h3; exact C48_params hrs c h1 hu h4 h3 h2

theorem action_report (a : Dict) : Adds (actionExtract ext rs a) (actionReport ext v a) := by
  rw [actionReport]
  have h1 := view_name hv a b!"S"
  have h2 := view_string hv a b!"F"
  have h3 := view_dict hv a b!"F"
  have h4 := view_dict hv a b!"Win"
  have hw : ∀ w, v.dict a b!"Win" = some w → Adds (fileExtract ext rs w (v.name a b!"S" = some b!"Launch")) ((v.dict a b!"Win").toList.flatMap (fileReport ext v (v.name a b!"S" = some b!"Launch"))) := by
    intro w hw
    rw [hw]
    simp only [Option.toList, List.flatMap_cons, List.flatMap_nil, List.append_nil]
    exact file_report hv hrs _ w
  cases hf : v.string a b!"F" with
  | some f =>
    rw [hf] at h2
    exact C48_action_string hrs h1 h2 h4 hw (fun h => by rw [h]; rfl)
  | none =>
    rw [hf] at h2
    refine C48_action hrs h1 h2 h3 h4 (fun f' hf' => ?_) (fun hn => by rw [hn]) hw (fun h => by rw [h]; rfl)
    rw [hf']
    exact file_report hv hrs _ f'

theorem opt_action (o : Option Dict) : Adds (match o with | some a => actionExtract ext rs a | none => pure ()) (o.toList.flatMap (actionReport ext v)) := by
  cases o with
  | none => exact adds_pure
  | some a =>
    simp only [Option.toList, List.flatMap_cons, List.flatMap_nil, List.append_nil]
    exact action_report hv hrs a

theorem aa_report (aa : Dict) : ∀ ks : List Bytes, Adds (aaExtract ext rs aa ks) (ks.flatMap fun k => (v.dict aa k).toList.flatMap (actionReport ext v)) := by
  have hcl := logFree_cl hrs
  intro ks
  induction ks with
  | nil => exact adds_pure
  | cons k t ih =>
    rw [aaExtract, List.flatMap_cons]
    refine adds_lift (hcl.dictDict _ _) (view_dict hv aa k) ?_
    have := adds_bind (k := fun _ => aaExtract ext rs aa t) (opt_action hv hrs (ext := ext) (v.dict aa k)) ih
    cases hk : v.dict aa k <;> rw [hk] at this <;> exact this

omit hv hrs in
theorem dictActions_eq (d : Dict) : dictActions ext rs d = (liftX (Dict.getDict rs d b!"A") >>= fun o => (match o with | some a => actionExtract ext rs a | none => pure ()) >>= fun _ =>
    liftX (Dict.getDict rs d b!"OpenAction") >>= fun o => (match o with | some a => actionExtract ext rs a | none => pure ()) >>= fun _ =>
    liftX (Dict.getDict rs d b!"AA") >>= fun o => match o with | some aa => (shuffle aa.keys >>= fun ks => aaExtract ext rs aa ks) | none => pure ()) := by
  rw [dictActions]
  congr 1
  funext o
  have : ∀ k : Unit → X Unit, (Pure.pure () >>= k) = k () := fun k => rfl
  cases o with
  | none =>
    dsimp only
    rw [this]
    congr 1
    funext o
    cases o <;> rfl
  | some a =>
    dsimp only
    congr 1
    funext _
    congr 1
    funext o
    cases o <;> rfl

theorem actions_report (d : Dict) : Vis (dictActions ext rs d) fun ws => ∃ aa, aa.Perm ((v.dict d b!"AA").toList.flatMap fun e => e.keys.flatMap fun k => (v.dict e k).toList.flatMap (actionReport ext v)) ∧
    ws = (v.dict d b!"A").toList.flatMap (actionReport ext v) ++ (v.dict d b!"OpenAction").toList.flatMap (actionReport ext v) ++ aa := by
  have hcl := logFree_cl hrs
  rw [dictActions_eq]
  refine Vis.lift (hcl.dictDict _ _) fun a s s' hr => ?_
  rw [view_dict hv _ _ _ _ _ hr]
  refine Vis.bind (opt_action hv hrs (ext := ext) _).vis (Q := fun ws => ∃ aa, aa.Perm ((v.dict d b!"AA").toList.flatMap fun e => e.keys.flatMap fun k => (v.dict e k).toList.flatMap (actionReport ext v)) ∧
    ws = (v.dict d b!"OpenAction").toList.flatMap (actionReport ext v) ++ aa) ?_ fun a b ha ⟨aa, h5, h6⟩ => ⟨aa, h5, by rw [ha, h6, List.append_assoc]⟩
  refine Vis.lift (hcl.dictDict _ _) fun a s s' hr => ?_
  rw [view_dict hv _ _ _ _ _ hr]
  refine Vis.bind (opt_action hv hrs (ext := ext) _).vis (Q := fun ws => ws.Perm ((v.dict d b!"AA").toList.flatMap fun e => e.keys.flatMap fun k => (v.dict e k).toList.flatMap (actionReport ext v))) ?_
    fun a b ha hb => ⟨b, hb, by rw [ha]⟩
  refine Vis.lift (hcl.dictDict _ _) fun a s s' hr => ?_
  rw [view_dict hv _ _ _ _ _ hr]
  cases v.dict d b!"AA" with
  | none => exact Vis.pure (.refl _)
  | some e =>
    refine Post.bind (Post.shuffle _) fun ks ws ⟨h1, h2⟩ => ?_
    rw [h1]
    refine Post.mono (aa_report hv hrs (ext := ext) e ks).vis fun _ ws hw => ?_
    show List.Perm (visible ([] ++ ws)) _
    rw [List.nil_append, hw]
    simp only [Option.toList, List.flatMap_cons, List.flatMap_nil, List.append_nil]
    exact h2.flatMap_right _

theorem xfa_data (l : List Obj) : ∀ (n i : Nat) (acc : Bytes), i + n = l.length → Reads (xfaData rs l n i acc) (acc ++ ((l.drop i).filterMap v.streamOf).flatten) := by
  intro n
  induction n with
  | zero =>
    intro i acc hi s a s' h
    cases h
    rw [List.drop_eq_nil_of_le (by omega)]; simp
  | succ n ih =>
    intro i acc hi s a s' h
    have hlt : i < l.length := by omega
    rw [xfaData] at h
    obtain ⟨b, s1, h1, h2⟩ := bind_ok h
    have h3 := view_arr_stream hv (List.getElem?_eq_getElem hlt) h1
    rw [List.drop_eq_getElem_cons hlt, List.filterMap_cons, ← h3]
    cases b with
    | none => exact ih (i + 1) acc (by omega) _ _ _ h2
    | some c =>
      rw [ih (i + 1) _ (by omega) _ _ _ h2]
      simp

theorem form_report (d : Dict) : Adds (dictXfa ext rs d) (formReport ext v d) := by
  have hcl := logFree_cl hrs
  refine Vis.adds ?_
  rw [dictXfa, formReport]
  refine Vis.lift (hcl.dictStream _ _) fun a s s' hr => ?_
  rw [← view_stream hv hr]
  cases a with
  | some x => exact (adds_dumped _ _).vis
  | none =>
    refine Vis.lift (hcl.dictArray _ _) fun a s s' hr => ?_
    rw [view_array hv _ _ _ _ _ hr]
    cases v.array d b!"XFA" with
    | none => exact Vis.pure rfl
    | some l =>
      refine Vis.lift (hcl.xfaData _ _ _ _) fun a s s' hr => ?_
      rw [xfa_data hv hrs l l.length 0 [] (by omega) _ _ _ hr]
      exact (adds_dumped _ _).vis

omit hv hrs in
theorem alternate_drop {α : Type} {l : List α} {i : Nat} (h : i < l.length) : alternate (l.drop i) = l[i] :: alternate (l.drop (i + 2)) := by
  rw [List.drop_eq_getElem_cons h]
  by_cases h2 : i + 1 < l.length
  · rw [List.drop_eq_getElem_cons h2, alternate]
  · rw [List.drop_eq_nil_of_le (by omega), List.drop_eq_nil_of_le (by omega)]; rfl

theorem embedded_loop (l : List Obj) : ∀ n i : Nat, i + 2 * n ≤ l.length + 1 → l.length ≤ i + 2 * n → Adds (embeddedExtract ext rs l n i) ((alternate (l.drop i)).flatMap fun o => match target v.value o with
    | .str name => [.file zeros name]
    | .dict f => fileReport ext v false f
    | _ => []) := by
  have hcl := logFree_cl hrs
  intro n
  induction n with
  | zero => intro i _ hi; rw [List.drop_eq_nil_of_le (by omega)]; exact adds_pure
  | succ n ih =>
    intro i h1 h2
    have hi : i < l.length := by omega
    rw [embeddedExtract, alternate_drop hi, List.flatMap_cons]
    have hrec := ih (i + 2) (by omega) (by omega)
    rw [Int.natCast_add] at hrec
    refine adds_lift (hcl.arrString _ _) (view_arr_string hv (List.getElem?_eq_getElem hi)) ?_
    have hd := view_arr_dict hv (List.getElem?_eq_getElem hi)
    cases ho : target v.value l[i] with
    | str b => exact adds_bind (adds_file _ _) hrec
    | dict f =>
      rw [ho] at hd
      refine adds_lift (hcl.arrDict _ _) hd ?_
      exact adds_bind (file_report hv hrs false f) hrec
    | _ =>
      rw [ho] at hd
      exact adds_lift (hcl.arrDict _ _) hd hrec

theorem embedded_report (l : List Obj) : Adds (embeddedExtract ext rs l (l.length / 2) 1) (embeddedReport ext v l) := by
  cases l with
  | nil => exact adds_pure
  | cons a t =>
    have := embedded_loop hv hrs (ext := ext) (a :: t) ((a :: t).length / 2) 1 (by omega) (by omega)
    exact this

theorem urls_loop (l : List Obj) : ∀ n i : Nat, i + 2 * n ≤ l.length + 1 → l.length ≤ i + 2 * n → Adds (urlsExtract rs l n i) ((alternate (l.drop i)).flatMap fun o => match target v.value o with
    | .str u => [.url u]
    | _ => []) := by
  have hcl := logFree_cl hrs
  intro n
  induction n with
  | zero => intro i _ hi; rw [List.drop_eq_nil_of_le (by omega)]; exact adds_pure
  | succ n ih =>
    intro i h1 h2
    have hi : i < l.length := by omega
    rw [urlsExtract, alternate_drop hi, List.flatMap_cons]
    have hrec := ih (i + 2) (by omega) (by omega)
    rw [Int.natCast_add] at hrec
    refine adds_lift (hcl.arrString _ _) (view_arr_string hv (List.getElem?_eq_getElem hi)) ?_
    cases ho : target v.value l[i] with
    | str b => exact adds_bind (adds_url _) hrec
    | _ => exact hrec

theorem urls_report (l : List Obj) : Adds (urlsExtract rs l ((l.length + 1) / 2) 0) (urlsReport v l) :=
  urls_loop hv hrs l ((l.length + 1) / 2) 0 (by omega) (by omega)

theorem names_of {f : Nat} {d : Dict} {key : Bytes} {s s' : PS} {l : List Obj} (h : getNameTreeMap rs f d key s = .ok (l, s')) : Names v d key l := by
  rw [Names]
  have hd : v.dict d key = (d.get? key).bind fun o => asDict (target v.value o) := by
    rw [View.dict, View.at_]
    cases d.get? key with
    | none => rfl
    | some o =>
      show (match some (target v.value o) with | some (.dict e) => some e | _ => none) = asDict (target v.value o)
      cases target v.value o <;> rfl
  rw [hd]
  cases hk : d.get? key with
  | none => exact C63_none (view_graph hv) h fun o root ho => by rw [hk] at ho; cases ho
  | some o =>
    show match asDict (target v.value o) with | none => _ | some root => _
    cases ho : target v.value o with
    | dict root => exact C63_order (view_graph hv) h hk ho
    | _ => exact C63_none (view_graph hv) h fun o' root ho' => by rw [hk] at ho'; cases ho'; rw [ho]; simp

theorem pages_of {f : Nat} {d : Dict} {key : Bytes} {s s' : PS} {l : Option (List Dict)} (h : getPageTree rs f d key s = .ok (l, s')) : Pages v d key (l.getD []) := by
  rw [Pages]
  have hd : v.dict d key = (d.get? key).bind fun o => asDict (target v.value o) := by
    rw [View.dict, View.at_]
    cases d.get? key with
    | none => rfl
    | some o =>
      show (match some (target v.value o) with | some (.dict e) => some e | _ => none) = asDict (target v.value o)
      cases target v.value o <;> rfl
  rw [hd]
  cases l with
  | none =>
    have := C21_none (view_graph hv) h
    cases hk : d.get? key with
    | none => rfl
    | some o =>
      show match asDict (target v.value o) with | none => _ | some root => _
      cases ho : target v.value o with
      | dict root => exact absurd ho (this _ _ hk)
      | _ => rfl
  | some l =>
    obtain ⟨o, root, ns, h1, h2, h3, h4⟩ := C21_order (view_graph hv) h
    rw [h1]
    show match asDict (target v.value o) with | none => _ | some root => _
    rw [h2]
    exact ⟨ns, h3, h4⟩

theorem script_report (d : Dict) : Adds (dictJs rs d) (scriptReport v d) := by
  have hcl := logFree_cl hrs
  rw [dictJs, scriptReport]
  refine adds_lift (hcl.dictString _ _) (view_string hv _ _) ?_
  cases v.string d b!"JS" with
  | some b => exact adds_of (Post.putJs b) (by simp [Write.kind])
  | none =>
    refine Vis.adds (Vis.lift (hcl.dictStream _ _) fun a s s' hr => ?_)
    rw [← view_stream hv hr]
    cases a with
    | none => exact Vis.pure rfl
    | some b => exact (adds_of (Post.putJs _) (by simp [Write.kind])).vis

theorem uri_report (d : Dict) : Adds (dictUri rs d) (uriReport v d) := by
  have hcl := logFree_cl hrs
  rw [dictUri, uriReport]
  refine adds_lift (hcl.dictString _ _) (view_string hv _ _) ?_
  cases v.string d b!"URI" with
  | some b => exact adds_url _
  | none =>
    refine adds_lift (hcl.dictDict _ _) (view_dict hv _ _) ?_
    cases v.dict d b!"URI" with
    | none => exact adds_pure
    | some e =>
      dsimp only
      refine adds_lift (hcl.dictString _ _) (view_string hv _ _) ?_
      cases v.string e b!"Base" with
      | none => exact adds_pure
      | some b => exact adds_url _

theorem fonts_read (fonts : Dict) : ∀ (ks : List Bytes) (acc m : Assoc Bytes Font) (s s' : PS), pageFonts rs fonts ks acc s = .ok (m, s') →
    ∀ k, if k ∈ ks then ∃ font, newFont ((v.streamAt ((v.dict fonts k).getD []) b!"ToUnicode").getD []) = .ok font ∧ m.get? k = some font else m.get? k = acc.get? k := by
  intro ks
  induction ks with
  | nil => intro acc m s s' h k; cases h; simp
  | cons j t ih =>
    intro acc m s s' h k
    rw [pageFonts_cons, fontOf] at h
    obtain ⟨fo, s1, h1, h⟩ := bind_ok h
    obtain ⟨a, s2, h2, h1⟩ := bind_ok h1
    rw [view_dict hv _ _ _ _ _ h2] at h1
    obtain ⟨b, s3, h3, h1⟩ := bind_ok h1
    have hb : (b.getD none).getD [] = (v.streamAt ((v.dict fonts j).getD []) b!"ToUnicode").getD [] := by
      rw [← view_stream hv h3]; cases b <;> rfl
    dsimp only at h1
    rw [hb] at h1
    have hfo : newFont ((v.streamAt ((v.dict fonts j).getD []) b!"ToUnicode").getD []) = .ok fo := by
      cases hn : newFont ((v.streamAt ((v.dict fonts j).getD []) b!"ToUnicode").getD []) with
      | ok x => rw [hn] at h1; cases h1; rfl
      | panic w => rw [hn] at h1; cases h1
      | oof => rw [hn] at h1; cases h1
    have hrec := ih _ _ _ _ h k
    by_cases hkt : k ∈ t
    · rw [if_pos hkt] at hrec
      rw [if_pos (by simp [hkt])]
      exact hrec
    · rw [if_neg hkt] at hrec
      by_cases hkj : k = j
      · subst hkj
        rw [if_pos (by simp)]
        exact ⟨fo, hfo, by rw [hrec, Assoc.get?_set, if_pos rfl]⟩
      · rw [if_neg (by simp [hkj, hkt]), hrec, Assoc.get?_set, if_neg (Ne.symm hkj)]

theorem parts_report (m : Assoc Bytes Font) (l : List Obj) : ∀ n i : Nat, i + n = l.length → Vis (pageParts rs m l n i) fun ws => ∃ ts : List Bytes,
    ((l.drop i).filterMap v.streamOf).map (pageText m) = ts.map .ok ∧ ws = ts.map .text := by
  have hcl := logFree_cl hrs
  intro n
  induction n with
  | zero => intro i hi; rw [List.drop_eq_nil_of_le (by omega)]; exact Vis.pure ⟨[], rfl, rfl⟩
  | succ n ih =>
    intro i hi
    have hlt : i < l.length := by omega
    rw [pageParts]
    refine Vis.lift (hcl.arrStream _ _) fun a s s' hr => ?_
    have h3 := view_arr_stream hv (List.getElem?_eq_getElem hlt) hr
    have hrec := ih (i + 1) (by omega)
    rw [Int.natCast_add, Int.natCast_one] at hrec
    rw [List.drop_eq_getElem_cons hlt, List.filterMap_cons, ← h3]
    cases a with
    | none => exact hrec
    | some c =>
      refine Post.bind (Post.ofRes (Q := fun t ws => ws = [] ∧ pageText m (c.getD []) = .ok t) fun t ht => ⟨rfl, ht⟩) fun t w2 ⟨q2, k2⟩ => ?_
      refine Post.bind (Post.putText t) fun _ w3 k3 => Post.mono hrec fun _ ws ⟨ts, h1, h2⟩ => ⟨t :: ts, ?_, ?_⟩
      · show pageText m (c.getD []) :: _ = _
        rw [k2, h1]; rfl
      · rw [q2, k3, visible_append, visible_append, h2]; rfl

theorem page_report (p : Dict) : Vis (pageExtract rs p) fun ws => ∃ (m : Assoc Bytes Font) (ts : List Bytes), Fonts v p m ∧ (contents v p).map (pageText m) = ts.map .ok ∧ ws = ts.map .text := by
  have hcl := logFree_cl hrs
  rw [pageExtract_eq]
  refine Vis.lift (hcl.dictDict _ _) fun a s s' hr => ?_
  rw [view_dict hv _ _ _ _ _ hr]
  refine Vis.lift (hcl.dictDict _ _) fun a s s' hr => ?_
  rw [view_dict hv _ _ _ _ _ hr]
  refine Post.bind (Post.shuffle _) fun ks ws ⟨h1, h2⟩ => ?_
  rw [h1]
  simp only [List.nil_append]
  show Vis (_ >>= _) fun ws => ∃ (m : Assoc Bytes Font) (ts : List Bytes), Fonts v p m ∧ (contents v p).map (pageText m) = ts.map .ok ∧ ws = ts.map .text
  refine Vis.lift (hcl.pageFonts _ _ _) fun m s s' hr => ?_
  have hm : Fonts v p m := by
    intro k
    have := fonts_read hv hrs _ ks [] m _ _ hr k
    simp only [h2.mem_iff] at this
    exact this
  rw [pageBody, contents]
  refine Vis.lift (hcl.dictStream _ _) fun a s s' hr => ?_
  rw [← view_stream hv hr]
  cases a with
  | some c =>
    refine Post.bind (Post.ofRes (Q := fun t ws => ws = [] ∧ pageText m (c.getD []) = .ok t) fun t ht => ⟨rfl, ht⟩) fun t w2 ⟨q2, k2⟩ => ?_
    refine (Post.putText t).mono fun _ w3 k3 => ⟨m, [t], hm, ?_, ?_⟩
    · show [pageText m (c.getD [])] = _
      rw [k2]; rfl
    · rw [q2, k3]; rfl
  | none =>
    refine Vis.lift (hcl.dictArray _ _) fun a s s' hr => ?_
    rw [view_array hv _ _ _ _ _ hr]
    cases v.array p b!"Contents" with
    | none => exact Vis.pure ⟨m, [], hm, rfl, rfl⟩
    | some l => exact (parts_report hv hrs m l l.length 0 (by omega)).mono fun ws ⟨ts, h1, h2⟩ => ⟨m, ts, hm, h1, h2⟩

theorem pages_report : ∀ l : List Dict, Vis (pagesExtract rs l) fun ws => ∃ ts : List Bytes, Texts v l ts ∧ ws = ts.map .text := by
  intro l
  induction l with
  | nil => exact Vis.pure ⟨[], .nil, rfl⟩
  | cons p t ih =>
    rw [pagesExtract]
    refine Vis.bind (page_report hv hrs p) ih ?_
    rintro _ _ ⟨m, ts, h1, h2, rfl⟩ ⟨us, h3, rfl⟩
    exact ⟨ts ++ us, .page h1 h2 h3, by rw [List.map_append]⟩

theorem text_report (fuel : Nat) (d : Dict) : Vis (dictPages rs fuel d) fun ws => ∃ (pages : List Dict) (ts : List Bytes), Pages v d b!"Pages" pages ∧ Texts v pages ts ∧ ws = ts.map .text := by
  have hcl := logFree_cl hrs
  rw [dictPages]
  refine Vis.lift (hcl.pageTree _ _ _) fun a s s' hr => ?_
  have := pages_of hv hrs hr
  cases a with
  | none => exact Vis.pure ⟨[], [], this, .nil, rfl⟩
  | some l => exact (pages_report hv hrs l).mono fun ws ⟨ts, h1, h2⟩ => ⟨l, ts, this, h1, h2⟩

theorem dict_report (fuel : Nat) (d : Dict) : Vis (dictExtract ext rs fuel d) (Reports ext v d) := by
  have hcl := logFree_cl hrs
  rw [dictExtract]
  have hu : Vis (dictUrls rs fuel d) fun ws => ∃ urls, Names v d b!"URLS" urls ∧ ws = urlsReport v urls := by
    rw [dictUrls]
    refine Vis.lift (hcl.nameTreeMap _ _ _) fun l s s' hr => ?_
    exact (urls_report hv hrs l).vis.mono fun ws hw => ⟨l, names_of hv hrs hr, hw⟩
  have he : Vis (dictEmbedded ext rs fuel d) fun ws => ∃ names, Names v d b!"EmbeddedFiles" names ∧ ws = embeddedReport ext v names := by
    rw [dictEmbedded]
    refine Vis.lift (hcl.nameTreeMap _ _ _) fun l s s' hr => ?_
    exact (embedded_report hv hrs l).vis.mono fun ws hw => ⟨l, names_of hv hrs hr, hw⟩
  refine Post.bind (actions_report hv hrs (ext := ext) d) fun _ w1 ⟨aa, h1, e1⟩ => ?_
  refine Post.bind (form_report hv hrs (ext := ext) d).vis fun _ w2 e2 => ?_
  refine Post.bind he fun _ w3 ⟨emb, h3, e3⟩ => ?_
  refine Post.bind (script_report hv hrs d).vis fun _ w4 e4 => ?_
  refine Post.bind (text_report hv hrs fuel d) fun _ w5 ⟨pages, ts, h5, h5', e5⟩ => ?_
  refine Post.bind (uri_report hv hrs d).vis fun _ w6 e6 => ?_
  refine Post.mono hu fun _ w7 ⟨urls, h7, e7⟩ => ?_
  refine ⟨aa, emb, urls, pages, ts, h1, h3, h7, h5, h5', ?_⟩
  simp only [visible_append, e1, e2, e3, e4, e5, e6, e7, List.append_assoc]

end

theorem Parts.nil {ι : Type} {R : ι → List Write → Prop} : Parts R [] [] := ⟨[], .refl _, by simp, rfl⟩

theorem Parts.single {ι : Type} {R : ι → List Write → Prop} {a : ι} {ws : List Write} (h : R a ws) : Parts R [a] ws := ⟨[(a, ws)], .refl _, by simpa using h, by simp⟩

theorem Parts.append {ι : Type} {R : ι → List Write → Prop} {l l' : List ι} {ws ws' : List Write} (h : Parts R l ws) (h' : Parts R l' ws') : Parts R (l ++ l') (ws ++ ws') := by
  obtain ⟨p, h1, h2, rfl⟩ := h
  obtain ⟨p', h1', h2', rfl⟩ := h'
  refine ⟨p ++ p', by rw [List.map_append]; exact h1.append h1', fun q hq => ?_, by rw [List.flatMap_append]⟩
  rcases List.mem_append.1 hq with hq | hq
  · exact h2 q hq
  · exact h2' q hq

theorem Parts.perm {ι : Type} {R : ι → List Write → Prop} {l l' : List ι} {ws : List Write} (h : Parts R l ws) (hl : l.Perm l') : Parts R l' ws := by
  obtain ⟨p, h1, h2, h3⟩ := h
  exact ⟨p, h1.trans hl, h2, h3⟩

theorem runAll_parts {α ι : Type} {R : ι → List Write → Prop} (f : α → X Unit) (g : α → List ι) : ∀ l : List α, (∀ a ∈ l, Vis (f a) (Parts R (g a))) →
    Vis (runAll (l.map f)) (Parts R (l.flatMap g)) := by
  intro l
  induction l with
  | nil => intro _; exact Vis.pure Parts.nil
  | cons a t ih =>
    intro h
    exact Vis.bind (k := fun _ => runAll (t.map f)) (h a (by simp)) (ih fun b hb => h b (by simp [hb])) fun x y hx hy => by rw [List.flatMap_cons]; exact Parts.append hx hy

theorem shuffle_parts {α ι : Type} {R : ι → List Write → Prop} (f : α → X Unit) (g : α → List ι) (l : List α) (h : ∀ a ∈ l, Vis (f a) (Parts R (g a))) :
    Vis (shuffle (l.map f) >>= fun l' => runAll l') (Parts R (l.flatMap g)) :=
  (Post.shuffle (l.map f)).bind fun l' ws hp => by
    obtain ⟨m, hm, rfl⟩ := perm_map_inv f l' l hp.2
    rw [hp.1]
    exact Post.mono (runAll_parts f g m fun a ha => h a (hm.mem_iff.1 ha)) fun _ vs hv => Parts.perm hv (hm.flatMap_right _)

theorem shuffle_parts' {α ι : Type} {R : ι → List Write → Prop} (f : α → X Unit) (g : α → List ι) (l : List α) (h : ∀ a ∈ l, Vis (f a) (Parts R (g a))) :
    Vis (shuffle l >>= fun l' => runAll (l'.map f)) (Parts R (l.flatMap g)) :=
  (Post.shuffle l).bind fun l' ws hp => by
    rw [hp.1]
    exact Post.mono (runAll_parts f g l' fun a ha => h a (hp.2.mem_iff.1 ha)) fun _ vs hv => Parts.perm hv (hp.2.flatMap_right _)

section
variable {rs : Resolver} {v : View} (hv : v.Of rs) (hrs : ∀ n, LogFree (rs n)) {ext : Ext}
include hv hrs

mutual
theorem extractObj_parts (fuel : Nat) : ∀ o, Vis (extractObj ext rs fuel o) (Parts (Reports ext v) (dictsIn o))
  | .dict d => by
    unfold extractObj dictsIn
    rw [extractVals_eq, dictsInValues_eq]
    exact Vis.bind (dict_report hv hrs fuel d) (shuffle_parts _ _ d (extractVals_parts fuel d)) fun a b ha hb => Parts.append (Parts.single ha) hb
  | .arr l => by
    unfold extractObj dictsIn
    rw [extractList_eq, dictsInList_eq]
    exact runAll_parts _ _ l (extractList_parts fuel l)
  | .kw _ => by unfold extractObj dictsIn; exact Vis.pure Parts.nil
  | .num _ => by unfold extractObj dictsIn; exact Vis.pure Parts.nil
  | .name _ => by unfold extractObj dictsIn; exact Vis.pure Parts.nil
  | .str _ => by unfold extractObj dictsIn; exact Vis.pure Parts.nil
  | .ref _ _ => by unfold extractObj dictsIn; exact Vis.pure Parts.nil
theorem extractVals_parts (fuel : Nat) : ∀ l : List (Bytes × Obj), ∀ p ∈ l, Vis (extractObj ext rs fuel p.2) (Parts (Reports ext v) (dictsIn p.2))
  | [] => by intro p hp; cases hp
  | (k, o) :: t => by
    intro p hp
    rcases List.mem_cons.1 hp with hp | hp
    · rw [hp]; exact extractObj_parts fuel o
    · exact extractVals_parts fuel t p hp
theorem extractList_parts (fuel : Nat) : ∀ l : List Obj, ∀ o ∈ l, Vis (extractObj ext rs fuel o) (Parts (Reports ext v) (dictsIn o))
  | [] => by intro p hp; cases hp
  | o :: t => by
    intro p hp
    rcases List.mem_cons.1 hp with hp | hp
    · rw [hp]; exact extractObj_parts fuel o
    · exact extractList_parts fuel t p hp
end
end

theorem extractAll_parts {env : Env} {f ft : Nat} {v : View} (hv : v.Of (resolver env f)) {objs : Int → IndObj} (ho : ∀ n, Reads (getObject env f n) (objs n)) (l : List (Int × XrefEntry)) :
    Vis (extractAll env f ft l) (Parts (fun n => ObjectReport env.ext v (objs n)) (inUse l)) := by
  have hrs : ∀ n, LogFree (resolver env f n) := resolver_lf env f
  have hl : inUse l = l.flatMap fun p => if p.2.typ = 1 then [p.1] else [] := by
    rw [← flatMap_inUse (fun n => [n])]; simp
  rw [hl, extractAll]
  refine shuffle_parts' _ _ l fun x _ => ?_
  rw [extractEntry]
  by_cases h : x.2.typ = 1
  · simp only [if_pos h]
    refine Post.bind (Post.ofRes (Q := fun _ ws => ws = []) fun _ _ => rfl) fun _ ws0 hw0 => ?_
    rw [hw0]
    simp only [List.nil_append]
    show Vis (_ >>= _) (Parts (fun n => ObjectReport env.ext v (objs n)) [x.1])
    refine Vis.lift (getObject_lf env f x.1) fun o s s' hr => ?_
    rw [ho x.1 _ _ _ hr]
    have h1 : Vis (objectExtract env.ext (resolver env f) ft (objs x.1)) (Parts (Reports env.ext v) (dictsOf (objs x.1))) := by
      rw [objectExtract, dictsOf]
      cases (objs x.1).value with
      | dict d => exact extractObj_parts hv hrs ft _
      | _ => exact Vis.pure Parts.nil
    have h2 : Vis (putRaw (objs x.1)) (fun ws => ∃ w, Reordered (objs x.1).value w ∧ ws = [.raw (objs x.1) w]) :=
      (Post.putRaw _).mono fun _ ws ⟨w, hw, he⟩ => ⟨w, hw, by rw [he]; rfl⟩
    exact Vis.bind h1 h2 fun a b ha ⟨w, hw, hb⟩ => Parts.single ⟨a, w, ha, hw, by rw [hb]⟩
  · simp only [if_neg h]
    exact Vis.pure Parts.nil

theorem exists_view {env : Env} (hoff : NonnegOffsets env) (f : Nat) : ∃ v : View, v.Of (resolver env f) := by
  have : ∀ n, ∃ o : IndObj, ∀ s o' s', resolver env f n s = .ok (o', s') → o' = o := by
    intro n
    obtain ⟨r, hr⟩ := resolver_fixed hoff f n
    cases r with
    | ok p =>
      refine ⟨p.1, fun s o s' h => ?_⟩
      obtain ⟨s1, h1, -⟩ := hr s
      rw [h1] at h
      cases h; rfl
    | panic w => exact ⟨⟨0, 0, Obj.null, none⟩, fun s o s' h => by rw [show resolver env f n s = .panic w from hr s] at h; cases h⟩
    | oof => exact ⟨⟨0, 0, Obj.null, none⟩, fun s o s' h => by rw [show resolver env f n s = .oof from hr s] at h; cases h⟩
  obtain ⟨g, hg⟩ := Classical.axiomOfChoice this
  exact ⟨⟨fun n => (g n).value, fun n => (g n).stream⟩, fun n s o s' h => by rw [hg n s o s' h]; exact ⟨rfl, rfl⟩⟩

end Pdf.Props
