import Verif.Lemmas.Tree
import Verif.Lemmas.Fixed
import Verif.Lemmas.GetObj
import Verif.Model.Concrete
import Verif.Model.Main
/-!
Page trees and name trees (C21, C22, C63).
-/

namespace Pdf.Props

open Spec

section
variable {rs : Resolver} {g : Int → Obj} (hg : Graph rs g)
include hg

/-- **C21** When GetPageTree returns a tree, it is the root followed by the dictionaries among the objects
that a depth-first search along the references in Kids arrays visits. -/
theorem C21_order {f : Nat} {d : Dict} {key : Bytes} {s s' : PS} {l : List Dict} (h : getPageTree rs f d key s = .ok (some l, s')) :
    ∃ (o : Obj) (root : Dict) (ns : List Int), d.get? key = some o ∧ target g o = .dict root ∧ Dfs (nextOf g) [] (refs (kidsOf g root)) ns ∧
      l = root :: ns.filterMap fun n => asDict (g n) := by
  rw [getPageTree] at h
  obtain ⟨v, s1, h1, h⟩ := St.bind_ok h
  have hv := getDict_graph hg h1
  cases v with
  | none => cases h
  | some root =>
    obtain ⟨⟨l', seen⟩, s2, h2, h⟩ := St.bind_ok h
    cases h
    obtain ⟨ns, h3, h4, -⟩ := (resolveKids_dfs hg f).1 _ _ _ _ _ _ h2
    cases hk : d.get? key with
    | none => rw [hk] at hv; cases hv
    | some o =>
      rw [hk] at hv
      refine ⟨o, root, ns, rfl, ?_, h3, h4⟩
      replace hv : some root = asDict (target g o) := hv
      cases ho : target g o <;> rw [ho] at hv <;> cases hv
      rfl

/-- **C21** The objects visited are exactly those that can be reached, each once. -/
theorem C21_reachable {f : Nat} {d : Dict} {key : Bytes} {s s' : PS} {l : List Dict} (h : getPageTree rs f d key s = .ok (some l, s')) :
    ∃ (o : Obj) (root : Dict) (ns : List Int), d.get? key = some o ∧ target g o = .dict root ∧ l = root :: ns.filterMap (fun n => asDict (g n)) ∧
      ns.Nodup ∧ ∀ n, n ∈ ns ↔ Reach (nextOf g) (refs (kidsOf g root)) n := by
  obtain ⟨o, root, ns, h1, h2, h3, h4⟩ := C21_order hg h
  exact ⟨o, root, ns, h1, h2, h4, h3.nodup, h3.mem_iff⟩

/-- **C21** GetPageTree finds no tree only if there is no dictionary under the key. -/
theorem C21_none {f : Nat} {d : Dict} {key : Bytes} {s s' : PS} (h : getPageTree rs f d key s = .ok (none, s')) :
    ∀ o root, d.get? key = some o → target g o ≠ .dict root := by
  rw [getPageTree] at h
  obtain ⟨v, s1, h1, h⟩ := St.bind_ok h
  have hv := getDict_graph hg h1
  cases v with
  | none =>
    intro o root ho e
    rw [ho] at hv
    replace hv : none = asDict (target g o) := hv
    rw [e] at hv; cases hv
  | some root =>
    obtain ⟨p, s2, h2, h⟩ := St.bind_ok h
    cases h

omit hg in
theorem bounded {α : Type} (h : α → Nat) : ∀ L : List α, ∃ K, ∀ n ∈ L, h n ≤ K := by
  intro L
  induction L with
  | nil => exact ⟨0, by simp⟩
  | cons a t ih =>
    obtain ⟨K, hK⟩ := ih
    refine ⟨max K (h a), fun n hn => ?_⟩
    rcases List.mem_cons.1 hn with rfl | hn
    · omega
    · have := hK n hn; omega

section
variable {L : List Int} (hL : ∀ n, n ∉ L → asDict (g n) = none)
include hL

theorem pageTree_ends {P : ∀ {α : Type}, M α → Prop} (hP : EndCl P) (hrs : ∀ n, P (rs n)) (d : Dict) (key : Bytes) :
    ∃ F, ∀ f ≥ F, P (getPageTree rs f d key) := by
  obtain ⟨K1, hK1⟩ := bounded (fun n => (kidsOf g ((asDict (g n)).getD [])).length) L
  obtain ⟨K, hK2, hK3⟩ : ∃ K, K1 ≤ K ∧ (kidsOf g (((d.get? key).bind fun o => asDict (target g o)).getD [])).length ≤ K := ⟨max K1 _, by omega, Nat.le_max_right _ _⟩
  refine ⟨(K + 2) * left L [] + (K + 2), fun f hf => ?_⟩
  rw [getPageTree]
  refine hP.bind (getDict_ends hP hrs _ _) fun s v t hv => ?_
  rw [← getDict_graph hg hv] at hK3
  cases v with
  | none => exact hP.pure _
  | some root =>
    refine hP.bind ((resolveKids_ends hg hP hrs hL (K := K) ?_ f).1 _ _ hK3 hf) fun _ _ _ _ => hP.pure _
    intro n e hn
    have hnL : n ∈ L := Classical.byContradiction fun h => by rw [hL n h] at hn; cases hn
    have := hK1 n hnL
    rw [hn] at this
    simp only [Option.getD_some] at this
    omega

/-- **C21** GetPageTree terminates, whatever the graph, if resolving a single reference does. -/
theorem C21_terminates (hrs : ∀ n s, rs n s ≠ .oof) (d : Dict) (key : Bytes) : ∃ F, ∀ f ≥ F, ∀ s, getPageTree rs f d key s ≠ .oof :=
  pageTree_ends hg hL noOof_cl hrs d key

/-- **C21** GetPageTree returns, whatever the graph, if resolving a single reference does. -/
theorem C21_returns (hrs : ∀ n s, ∃ r, rs n s = .ok r) (d : Dict) (key : Bytes) : ∃ F, ∀ f ≥ F, ∀ s, ∃ r, getPageTree rs f d key s = .ok r :=
  pageTree_ends hg hL total_cl hrs d key

theorem nameTree_ends' {P : ∀ {α : Type}, M α → Prop} (hP : EndCl P) (hrs : ∀ n, P (rs n)) (d : Dict) (key : Bytes)
    (hkids : ∀ o root e, d.get? key = some o → target g o = .dict root → Node g root e → ¬ Endless g e) :
    ∃ F, ∀ f ≥ F, P (getNameTreeMap rs f d key) := by
  obtain ⟨F, hF⟩ : ∃ F, ∀ root, ((d.get? key).bind fun o => asDict (target g o)) = some root → ∀ f ≥ F, P (nameTree rs f root []) := by
    cases hk : d.get? key with
    | none => exact ⟨0, fun root h => by cases h⟩
    | some o =>
      cases hd : asDict (target g o) with
      | none => exact ⟨0, fun root h => by rw [Option.bind_some, hd] at h; cases h⟩
      | some root =>
        have hk' : ∀ e, Node g root e → ∃ n, Deep g n e := fun e he => deep_of_ends (hkids o root e hk (asDict_some hd) he)
        obtain ⟨n, hn⟩ := hk' root .root
        obtain ⟨F, hF⟩ := nameTree_ends hg hP hrs hL hk' (left L []) n root .root hn
        refine ⟨F, fun root' h f hf => ?_⟩
        rw [Option.bind_some, hd] at h
        cases h
        exact hF f hf [] (Nat.le_refl _)
  refine ⟨F, fun f hf => ?_⟩
  rw [getNameTreeMap]
  refine hP.bind (getDict_ends hP hrs _ _) fun s v t hv => ?_
  have hv' := getDict_graph hg hv
  cases v with
  | none => exact hP.pure _
  | some root => exact hP.bind (hF root hv'.symm f hf) fun _ _ _ _ => hP.pure _

/-- **C22, partial** GetNameTreeMap terminates if resolving a single reference does and no node has an endless way down that uses only kids
given as dictionaries. Missing: the other trees, where it never returns (`C22_endless_false`, `C22_false`). -/
theorem C22_partial (hrs : ∀ n s, rs n s ≠ .oof) (d : Dict) (key : Bytes)
    (hkids : ∀ o root e, d.get? key = some o → target g o = .dict root → Node g root e → ¬ Endless g e) :
    ∃ F, ∀ f ≥ F, ∀ s, getNameTreeMap rs f d key s ≠ .oof :=
  nameTree_ends' hg hL noOof_cl hrs d key hkids

/-- **C22, partial** In that case it returns, if resolving a single reference does. -/
theorem C22_returns_partial (hrs : ∀ n s, ∃ r, rs n s = .ok r) (d : Dict) (key : Bytes)
    (hkids : ∀ o root e, d.get? key = some o → target g o = .dict root → Node g root e → ¬ Endless g e) :
    ∃ F, ∀ f ≥ F, ∀ s, ∃ r, getNameTreeMap rs f d key s = .ok r :=
  nameTree_ends' hg hL total_cl hrs d key hkids

end

/-- **C63** When GetNameTreeMap returns, it gives the names in the root and in the nodes below it, in the
order of a depth-first search. -/
theorem C63_order {f : Nat} {d : Dict} {key : Bytes} {s s' : PS} {l : List Obj} {o : Obj} {root : Dict} (h : getNameTreeMap rs f d key s = .ok (l, s'))
    (ho : d.get? key = some o) (hroot : target g o = .dict root) :
    ∃ below numbers, NameDfs g [] (kidsOf g root) below numbers ∧ l = namesOf g root ++ below := by
  rw [getNameTreeMap] at h
  obtain ⟨v, s1, h1, h⟩ := St.bind_ok h
  have hv := getDict_graph hg h1
  rw [ho] at hv
  replace hv : v = asDict (target g o) := hv
  rw [hroot] at hv
  subst hv
  obtain ⟨⟨l', seen⟩, s2, h2, h⟩ := St.bind_ok h
  cases h
  obtain ⟨b, bn, h3, h4, -⟩ := (nameTree_dfs hg f).1 _ _ _ _ _ _ h2
  exact ⟨b, bn, h3, h4⟩

/-- **C22 fails** for every tree with a node from which an endless way leads down through kids given as dictionaries: GetNameTreeMap
does not return. -/
theorem C22_endless_false {f : Nat} {d : Dict} {key : Bytes} {o : Obj} {root e : Dict} (ho : d.get? key = some o) (hroot : target g o = .dict root) (he : Node g root e) (hend : Endless g e)
    (s : PS) (l : List Obj) (s' : PS) : getNameTreeMap rs f d key s ≠ .ok (l, s') := by
  intro h
  obtain ⟨below, numbers, h1, -⟩ := C63_order hg h ho hroot
  exact h1.ends_all he hend

/-- **C63** Without a dictionary under the key there are no names. -/
theorem C63_none {f : Nat} {d : Dict} {key : Bytes} {s s' : PS} {l : List Obj} (h : getNameTreeMap rs f d key s = .ok (l, s'))
    (hno : ∀ o root, d.get? key = some o → target g o ≠ .dict root) : l = [] := by
  rw [getNameTreeMap] at h
  obtain ⟨v, s1, h1, h⟩ := St.bind_ok h
  have hv := getDict_graph hg h1
  cases v with
  | none => cases h; rfl
  | some root =>
    cases hk : d.get? key with
    | none => rw [hk] at hv; cases hv
    | some o =>
      rw [hk] at hv
      replace hv : some root = asDict (target g o) := hv
      have := hno o root hk
      cases ho : target g o <;> rw [ho] at hv <;> cases hv
      exact absurd ho this

/-- **C63** Every name in a node of the tree is listed, and nothing else is; no object number is visited twice. -/
theorem C63_exact {f : Nat} {d : Dict} {key : Bytes} {s s' : PS} {l : List Obj} {o : Obj} {root : Dict} (h : getNameTreeMap rs f d key s = .ok (l, s'))
    (ho : d.get? key = some o) (hroot : target g o = .dict root) (x : Obj) : x ∈ l ↔ ∃ e, Node g root e ∧ x ∈ namesOf g e := by
  obtain ⟨below, numbers, h1, rfl⟩ := C63_order hg h ho hroot
  constructor
  · intro hx
    rcases List.mem_append.1 hx with hx | hx
    · exact ⟨root, .root, hx⟩
    · exact h1.sound (fun e he => .direct .root he) (fun n gen e he hn => .indirect .root he hn) x hx
  · rintro ⟨e, he, hx⟩
    exact h1.complete he x hx

end

/-- **C63** No object number is visited twice in a name tree. -/
theorem C63_once {g : Int → Obj} {todo names : List Obj} {numbers : List Int} (h : NameDfs g [] todo names numbers) : numbers.Nodup := h.nodup

/-! ### Trees in a file -/

/-- **C21** In a file whose offsets are not negative, GetPageTree terminates if resolving a single reference
does: references to the same page, or to a page above, do not matter. -/
theorem C21_file {env : Env} (hoff : ∀ n e, env.xref.get? n = some e → e.typ = 1 → 0 ≤ e.offset) (f : Nat) (hrs : ∀ n s, resolver env f n s ≠ .oof) (d : Dict) (key : Bytes) :
    ∃ F, ∀ ft ≥ F, ∀ s, getPageTree (resolver env f) ft d key s ≠ .oof := by
  obtain ⟨g, hg, hn⟩ := exists_graph hoff f
  refine C21_terminates hg (L := env.xref.map (·.1)) (fun n h => hn n ?_) hrs d key
  cases he : env.xref.get? n with
  | none => rfl
  | some e => exact absurd (List.mem_map.2 ⟨_, Assoc.get?_some_mem he, rfl⟩) h

/-- A page tree with a page that is listed twice and lists the root among its kids. -/
def cyclic : Int → Obj := fun n => if n = 1 then .dict [(b!"Kids", .arr [.ref 2 0, .ref 3 0, .ref 2 0])] else if n = 2 then .dict [(b!"Kids", .arr [.ref 1 0, .null])] else .null

/-- The hypotheses of `C21_order`, `C21_terminates`, `C21_returns` and `C63_exact`. -/
example : Graph (fun n => pure ⟨n, 0, cyclic n, none⟩) cyclic ∧ (∀ n, n ∉ [1, 2] → asDict (cyclic n) = none) ∧
    (∀ n s, ∃ r, (pure ⟨n, 0, cyclic n, none⟩ : M IndObj) s = .ok r) ∧
    (∃ l s', getPageTree (fun n => pure ⟨n, 0, cyclic n, none⟩) 9 [(b!"Pages", .ref 1 0)] b!"Pages" PS.init = .ok (some l, s') ∧
      l = [[(b!"Kids", .arr [.ref 2 0, .ref 3 0, .ref 2 0])], [(b!"Kids", .arr [.ref 1 0, .null])], [(b!"Kids", .arr [.ref 2 0, .ref 3 0, .ref 2 0])]]) := by
  refine ⟨fun n s o s' h => by cases h; rfl, fun n hn => ?_, fun n s => ⟨_, rfl⟩, _, _, rfl, rfl⟩
  rw [cyclic, if_neg (by simp at hn; exact hn.1), if_neg (by simp at hn; exact hn.2)]; rfl

/-- The hypothesis of `C22_partial`: a tree with a cycle through numbers, whose kids are given by reference. -/
def byNumber : Int → Obj := fun n => if n = 1 then .dict [(b!"Kids", .ref 2 0)] else if n = 2 then .arr [.ref 1 0, .dict [(b!"Names", .arr [.str b!"a", .str b!"b"])]] else .null

theorem byNumber_nodes {e : Dict} (h : Node byNumber [(b!"Kids", .ref 2 0)] e) : e = [(b!"Kids", .ref 2 0)] ∨ e = [(b!"Names", .arr [.str b!"a", .str b!"b"])] := by
  have hd : ∀ n e, byNumber n = .dict e → e = [(b!"Kids", .ref 2 0)] := by
    intro n e he
    rw [byNumber] at he
    split at he
    · cases he; rfl
    · split at he <;> cases he
  induction h with
  | root => exact .inl rfl
  | direct _ h ih =>
    rcases ih with rfl | rfl
    · simp [kidsOf, arrayAt, target, byNumber, Assoc.get?] at h
      exact .inr h
    · simp [kidsOf, arrayAt, Assoc.get?] at h
  | indirect _ _ h _ => exact .inl (hd _ _ h)

theorem byNumber_ends {e : Dict} (h : Node byNumber [(b!"Kids", .ref 2 0)] e) : ¬ Endless byNumber e := by
  have h2 : ¬ Endless byNumber [(b!"Names", .arr [.str b!"a", .str b!"b"])] := fun h => by
    obtain ⟨e, h1, -⟩ := h.next
    simp [kidsOf, arrayAt, Assoc.get?] at h1
  rcases byNumber_nodes h with rfl | rfl
  · intro h
    obtain ⟨e, h1, h3⟩ := h.next
    simp [kidsOf, arrayAt, target, byNumber, Assoc.get?] at h1
    subst h1
    exact h2 h3
  · exact h2

example : ∀ o root e, Assoc.get? [(b!"URLS", Obj.ref 1 0)] b!"URLS" = some o → target byNumber o = .dict root → Node byNumber root e → ¬ Endless byNumber e := by
  intro o root e ho hr he
  cases ho
  cases hr
  exact byNumber_ends he

/-- The hypothesis of `C22_endless_false`. -/
example : ∃ g : Int → Obj, ∃ root, target g (.ref 1 0) = .dict root ∧ Endless g root :=
  ⟨fun n => if n = 1 then .dict [(b!"Kids", .ref 2 0)] else .arr [.dict [(b!"Kids", .ref 2 0)]], _, rfl, fun _ => [(b!"Kids", .ref 2 0)], rfl, fun _ => List.mem_cons_self ..⟩

/-! ### C22 fails -/

/-- what a reference to `n` gives in a file -/
def resolvesTo (cfg : Cfg) (n : Int) : Option Obj := match load cfg default 2 2 [] LS.init with
  | .ok (none, ls) =>
    if ls.xref.all fun p => decide (0 ≤ p.2.offset) then
      match resolver (ls.env cfg) 2 n ls.ps with
      | .ok (o, _) => some o.value
      | _ => none
    else none
  | _ => none

theorem resolvesTo_run {cfg : Cfg} {n : Int} {v : Obj} (h : resolvesTo cfg n = some v) :
    ∃ ls, load cfg default 2 2 [] LS.init = .ok (none, ls) ∧ ∀ f s, f < 2 ∧ resolver (ls.env cfg) f n s = .oof ∨ ∃ o s', resolver (ls.env cfg) f n s = .ok (o, s') ∧ o.value = v := by
  rw [resolvesTo] at h
  split at h
  · rename_i ls hl
    split at h
    · rename_i ha
      have hoff : NonnegOffsets (ls.env cfg) := by
        intro n e he _
        have := List.all_eq_true.1 ha _ (Assoc.get?_some_mem he)
        simpa using this
      split at h
      · rename_i o s' hr
        cases h
        refine ⟨ls, hl, fun f s => ?_⟩
        obtain ⟨r, hfix⟩ := resolver_fixed hoff 2 n
        have h2 : ∃ s1, resolver (ls.env cfg) 2 n s = .ok (o, s1) := by
          have a1 := hfix ls.ps
          have a2 := hfix s
          rw [hr] at a1
          cases r with
          | ok p =>
            obtain ⟨s2, b1, -⟩ := a1
            obtain ⟨s3, b2, -⟩ := a2
            cases b1
            exact ⟨s3, b2⟩
          | panic w => cases a1
          | oof => cases a1
        obtain ⟨s1, h2⟩ := h2
        rcases Nat.lt_or_ge f 2 with hle | hle
        · rcases resolver_le (ls.env cfg) (Nat.le_of_lt hle) n s with h3 | h3
          · exact .inl ⟨hle, h3⟩
          · exact .inr ⟨o, s1, by rw [h3, h2], rfl⟩
        · rcases resolver_le (ls.env cfg) hle n s with h3 | h3
          · rw [h2] at h3; cases h3
          · exact .inr ⟨o, s1, by rw [← h3, h2], rfl⟩
      · cases h
    · cases h
  · cases h

/-- The array of kids of a node, given by reference, holds a node with the same array of kids. -/
def loopFile : Bytes := b!"1 0 obj<</URLS<</Kids 5 0 R>>>>endobj 5 0 obj[<</Kids 5 0 R>>]endobj"

set_option maxRecDepth 100000 in
theorem loop_kids : resolvesTo ⟨loopFile, Concrete.ext, some false⟩ 5 = some (.arr [.dict [(b!"Kids", .ref 5 0)]]) := by decide +kernel
set_option maxRecDepth 100000 in
theorem loop_root : resolvesTo ⟨loopFile, Concrete.ext, some false⟩ 1 = some (.dict [(b!"URLS", .dict [(b!"Kids", .ref 5 0)])]) := by decide +kernel

/-- the loop -/
theorem loop_forever {rs : Resolver} (h : ∀ s, rs 5 s = .oof ∨ ∃ o s', rs 5 s = .ok (o, s') ∧ o.value = .arr [.dict [(b!"Kids", .ref 5 0)]]) (f : Nat) :
    (∀ seen s, nameTree rs f [(b!"Kids", .ref 5 0)] seen s = .oof) ∧ ∀ acc seen s, nameTreeKids rs f [.dict [(b!"Kids", .ref 5 0)]] acc seen s = .oof := by
  induction f with
  | zero => exact ⟨fun _ _ => by rw [nameTree], fun _ _ _ => by rw [nameTreeKids]⟩
  | succ f ih =>
    constructor
    · intro seen s
      rw [nameTree, St.bind_of_ok (Dict.getArray_none _ (by decide))]
      rcases h s with h | ⟨o, s', h, ho⟩
      · have : Dict.getArray rs [(b!"Kids", .ref 5 0)] b!"Kids" s = .oof := by
          rw [Dict.getArray, Dict.getObject]
          show ((((rs 5 >>= fun o => pure o.value) >>= fun v => pure (some v)) >>= fun o => pure (o.bind Obj.asArr?)) : M _) s = .oof
          rw [St.bind_run, St.bind_run, St.bind_run, h]; rfl
        rw [St.bind_run, this]; rfl
      · have : Dict.getArray rs [(b!"Kids", .ref 5 0)] b!"Kids" s = .ok (some [.dict [(b!"Kids", .ref 5 0)]], s') := by
          rw [Dict.getArray, Dict.getObject]
          show ((((rs 5 >>= fun o => pure o.value) >>= fun v => pure (some v)) >>= fun o => pure (o.bind Obj.asArr?)) : M _) s = _
          rw [St.bind_run, St.bind_run, St.bind_run, h]
          show Res.ok (Obj.asArr? o.value, s') = _
          rw [ho]; rfl
        rw [St.bind_of_ok this]
        exact ih.2 _ _ _
    · intro acc seen s
      rw [nameTreeKids_direct (by intro n gen h; cases h), St.bind_run]
      show (nameTree rs f [(b!"Kids", .ref 5 0)] seen s >>= _) = _
      rw [ih.1]; rfl

/-- **C22 fails** for nodes that give their kids by reference: in this file the name tree of object 1 is
read forever. -/
theorem C22_false : ∃ (file : Bytes) (ls : LS) (d : Dict), load ⟨file, Concrete.ext, some false⟩ default 2 2 [] LS.init = .ok (none, ls) ∧
    (∀ f ≥ 2, ∀ s, ∃ o s', resolver (ls.env ⟨file, Concrete.ext, some false⟩) f 1 s = .ok (o, s') ∧ o.value = .dict d) ∧
    ∀ f ft s, getNameTreeMap (resolver (ls.env ⟨file, Concrete.ext, some false⟩) f) ft d b!"URLS" s = .oof := by
  have h1 := loop_kids
  have h2 := loop_root
  generalize loopFile = file at h1 h2
  obtain ⟨ls, hl, k1⟩ := resolvesTo_run h1
  obtain ⟨ls', hl', k2⟩ := resolvesTo_run h2
  rw [hl] at hl'
  cases hl'
  refine ⟨file, ls, [(b!"URLS", .dict [(b!"Kids", .ref 5 0)])], hl, fun f hf s => ?_, fun f ft s => ?_⟩
  · rcases k2 f s with ⟨h, -⟩ | h
    · omega
    · exact h
  · rw [getNameTreeMap, St.bind_of_ok (Dict.getDict_direct (o := .dict [(b!"Kids", .ref 5 0)]) _ rfl (by simp))]
    show (nameTree (resolver (ls.env ⟨file, Concrete.ext, some false⟩) f) ft [(b!"Kids", .ref 5 0)] [] >>= _) s = _
    rw [St.bind_run, (loop_forever (fun s => (k1 f s).imp_left And.right) ft).1]; rfl

end Pdf.Props
