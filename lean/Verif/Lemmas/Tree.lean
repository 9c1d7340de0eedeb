import Verif.Lemmas.Getters
import Verif.Lemmas.Fixed
import Verif.Model.Extract
import Verif.Spec.Tree
/-!
Page trees and name trees.
-/

namespace Pdf

open Spec

/-! ### Depth-first search -/

theorem Spec.Dfs.congr {next : Int → List Int} {seen todo out : List Int} (h : Dfs next seen todo out) :
    ∀ {seen'}, (∀ n, n ∈ seen ↔ n ∈ seen') → Dfs next seen' todo out := by
  induction h with
  | done => intro _ _; exact .done
  | skip hn _ ih => intro seen' hs; exact .skip ((hs _).1 hn) (ih hs)
  | visit hn _ _ ih1 ih2 =>
    intro seen' hs
    exact .visit (fun h => hn ((hs _).2 h)) (ih1 fun m => by simp [hs]) (ih2 fun m => by simp [hs])

theorem Spec.Dfs.unseen {next : Int → List Int} {seen todo out : List Int} (h : Dfs next seen todo out) : ∀ n ∈ out, n ∉ seen := by
  induction h with
  | done => simp
  | skip _ _ ih => exact ih
  | visit hn _ _ ih1 ih2 =>
    intro m hm
    simp only [List.cons_append, List.mem_cons, List.mem_append] at hm
    rcases hm with rfl | hm | hm
    · exact hn
    · exact fun h => ih1 m hm (by simp [h])
    · exact fun h => ih2 m hm (by simp [h])

theorem Spec.Dfs.nodup {next : Int → List Int} {seen todo out : List Int} (h : Dfs next seen todo out) : out.Nodup := by
  induction h with
  | done => simp
  | skip _ _ ih => exact ih
  | visit hn h1 h2 ih1 ih2 =>
    rw [List.cons_append, List.nodup_cons, List.nodup_append]
    refine ⟨?_, ih1, ih2, ?_⟩
    · intro h
      rcases List.mem_append.1 h with h | h
      · exact h1.unseen _ h (by simp)
      · exact h2.unseen _ h (by simp)
    · intro a ha b hb e
      subst e
      exact h2.unseen _ hb (by simp [ha])

theorem Spec.Dfs.todo {next : Int → List Int} {seen todo out : List Int} (h : Dfs next seen todo out) : ∀ n ∈ todo, n ∈ seen ∨ n ∈ out := by
  induction h with
  | done => simp
  | skip hn _ ih =>
    intro m hm
    rcases List.mem_cons.1 hm with rfl | hm
    · exact .inl hn
    · exact ih m hm
  | visit hn _ _ _ ih2 =>
    intro m hm
    rcases List.mem_cons.1 hm with rfl | hm
    · exact .inr (by simp)
    · rcases ih2 m hm with h | h
      · simp only [List.cons_append, List.mem_cons, List.mem_append] at h ⊢
        rcases h with h | h | h
        · exact .inr (.inl h)
        · exact .inr (.inr (.inl h))
        · exact .inl h
      · exact .inr (by simp [h])

theorem Spec.Dfs.closed {next : Int → List Int} {seen todo out : List Int} (h : Dfs next seen todo out) : ∀ n ∈ out, ∀ m ∈ next n, m ∈ seen ∨ m ∈ out := by
  induction h with
  | done => simp
  | skip _ _ ih => exact ih
  | visit hn h1 _ ih1 ih2 =>
    intro a ha m hm
    simp only [List.cons_append, List.mem_cons, List.mem_append] at ha ⊢
    rcases ha with rfl | ha | ha
    · rcases h1.todo m hm with h | h
      · rcases List.mem_cons.1 h with h | h
        · exact .inr (.inl h)
        · exact .inl h
      · exact .inr (.inr (.inl h))
    · rcases ih1 a ha m hm with h | h
      · rcases List.mem_cons.1 h with h | h
        · exact .inr (.inl h)
        · exact .inl h
      · exact .inr (.inr (.inl h))
    · rcases ih2 a ha m hm with h | h
      · simp only [List.cons_append, List.mem_cons, List.mem_append] at h
        rcases h with h | h | h
        · exact .inr (.inl h)
        · exact .inr (.inr (.inl h))
        · exact .inl h
      · exact .inr (.inr (.inr h))

theorem Spec.Reach.mono {next : Int → List Int} {a b : List Int} (h : ∀ n ∈ a, Reach next b n) {n : Int} (hn : Reach next a n) : Reach next b n := by
  induction hn with
  | start hn => exact h _ hn
  | step _ hm ih => exact .step ih hm

theorem Spec.Dfs.reach {next : Int → List Int} {seen todo out : List Int} (h : Dfs next seen todo out) : ∀ n ∈ out, Reach next todo n := by
  induction h with
  | done => simp
  | skip _ _ ih => exact fun n hn => Reach.mono (fun m hm => .start (by simp [hm])) (ih n hn)
  | visit _ _ _ ih1 ih2 =>
    intro m hm
    simp only [List.cons_append, List.mem_cons, List.mem_append] at hm
    rcases hm with rfl | hm | hm
    · exact .start (by simp)
    · exact Reach.mono (fun k hk => .step (.start (by simp)) hk) (ih1 m hm)
    · exact Reach.mono (fun k hk => .start (by simp [hk])) (ih2 m hm)

/-- a search that starts with nothing seen visits exactly what can be reached -/
theorem Spec.Dfs.mem_iff {next : Int → List Int} {todo out : List Int} (h : Dfs next [] todo out) (n : Int) : n ∈ out ↔ Reach next todo n := by
  refine ⟨h.reach n, fun hn => ?_⟩
  induction hn with
  | start hm => exact (h.todo _ hm).resolve_left (by simp)
  | step _ hm ih => exact (h.closed _ ih _ hm).resolve_left (by simp)

theorem Spec.NameDfs.unseen {g : Int → Obj} {seen : List Int} {todo names : List Obj} {ns : List Int} (h : NameDfs g seen todo names ns) : ∀ n ∈ ns, n ∉ seen := by
  induction h with
  | done => simp
  | skip _ _ ih => exact ih
  | visit hn _ _ ih1 ih2 => grind
  | direct _ _ _ ih1 ih2 => grind

theorem Spec.NameDfs.nodup {g : Int → Obj} {seen : List Int} {todo names : List Obj} {ns : List Int} (h : NameDfs g seen todo names ns) : ns.Nodup := by
  induction h with
  | done => simp
  | skip _ _ ih => exact ih
  | visit hn h1 h2 ih1 ih2 =>
    have u1 := h1.unseen
    have u2 := h2.unseen
    rw [List.cons_append, List.nodup_cons, List.nodup_append]
    exact ⟨by grind, ih1, ih2, by grind⟩
  | direct _ h1 h2 ih1 ih2 =>
    have u2 := h2.unseen
    rw [List.nodup_append]
    exact ⟨ih1, ih2, by grind⟩

/-- the names found are those of nodes below -/
theorem Spec.NameDfs.sound {g : Int → Obj} {root : Dict} {seen : List Int} {todo names : List Obj} {ns : List Int} (h : NameDfs g seen todo names ns) :
    (∀ e, .dict e ∈ todo → Node g root e) → (∀ n gen e, .ref n gen ∈ todo → g n = .dict e → Node g root e) →
    ∀ x ∈ names, ∃ e, Node g root e ∧ x ∈ namesOf g e := by
  induction h with
  | done => simp
  | skip _ _ ih => exact fun h1 h2 => ih (fun e he => h1 e (by simp [he])) (fun n gen e he => h2 n gen e (by simp [he]))
  | @visit seen n gen todo b bn r rn hn _ _ ih1 ih2 =>
    intro h1 h2 x hx
    rcases List.mem_append.1 hx with hx | hx
    · cases hd : g n with
      | dict e =>
        have hne := h2 n gen e (by simp) hd
        rw [hd] at ih1 hx
        rcases List.mem_append.1 hx with hx | hx
        · exact ⟨e, hne, hx⟩
        · exact ih1 (fun e' he => .direct hne he) (fun m gen e' he hm => .indirect hne he hm) x hx
      | _ =>
        rw [hd] at ih1 hx
        rcases List.mem_append.1 hx with hx | hx
        · cases hx
        · exact ih1 (fun e' he => nomatch he) (fun m gen e' he hm => nomatch he) x hx
    · exact ih2 (fun e he => h1 e (by simp [he])) (fun n gen e he => h2 n gen e (by simp [he])) x hx
  | @direct seen o todo b bn r rn ho _ _ ih1 ih2 =>
    intro h1 h2 x hx
    rcases List.mem_append.1 hx with hx | hx
    · cases hd : o with
      | dict e =>
        subst hd
        have hne := h1 e (by simp)
        rcases List.mem_append.1 hx with hx | hx
        · exact ⟨e, hne, hx⟩
        · exact ih1 (fun e' he => .direct hne he) (fun m gen e' he hm => .indirect hne he hm) x hx
      | _ =>
        rw [hd] at ih1 hx
        rcases List.mem_append.1 hx with hx | hx
        · cases hx
        · exact ih1 (fun e' he => nomatch he) (fun m gen e' he hm => nomatch he) x hx
    · exact ih2 (fun e he => h1 e (by simp [he])) (fun n gen e he => h2 n gen e (by simp [he])) x hx

theorem asDict_some {o : Obj} {d : Dict} (h : asDict o = some d) : o = .dict d := by
  cases o <;> cases h
  rfl

/-- the nodes visited: closed under direct kids, and under references up to `seen` -/
structure Visited (g : Int → Obj) (seen : List Int) (todo names : List Obj) (ns : List Int) (V : List Dict) : Prop where
  names : names = V.flatMap (namesOf g)
  node : ∀ root, (∀ e, .dict e ∈ todo → Node g root e) → (∀ n gen e, .ref n gen ∈ todo → g n = .dict e → Node g root e) → ∀ d ∈ V, Node g root d
  dict : ∀ d ∈ V, ∀ e, .dict e ∈ kidsOf g d → e ∈ V
  ref : ∀ d ∈ V, ∀ n gen, .ref n gen ∈ kidsOf g d → n ∈ seen ∨ n ∈ ns
  num : ∀ n ∈ ns, ∀ e, g n = .dict e → e ∈ V
  todoDict : ∀ e, .dict e ∈ todo → e ∈ V
  todoRef : ∀ n gen, .ref n gen ∈ todo → n ∈ seen ∨ n ∈ ns

theorem Spec.NameDfs.visited {g : Int → Obj} {seen : List Int} {todo names : List Obj} {ns : List Int} (h : NameDfs g seen todo names ns) :
    ∃ V, Visited g seen todo names ns V := by
  induction h with
  | done => exact ⟨[], by constructor <;> simp⟩
  | @skip seen n gen todo names ns hn _ ih =>
    obtain ⟨V, hV⟩ := ih
    refine ⟨V, hV.names, fun root k1 k2 => hV.node root (fun e he => k1 e (by simp [he])) (fun n gen e he => k2 n gen e (by simp [he])), hV.dict, hV.ref, hV.num, fun e he => hV.todoDict e (by simpa using he), fun m gen' hm => ?_⟩
    rcases List.mem_cons.1 hm with hm | hm
    · cases hm; exact .inl hn
    · exact hV.todoRef m gen' hm
  | @visit seen n gen todo b bn r rn hn _ _ ih1 ih2 =>
    obtain ⟨V1, h1⟩ := ih1
    obtain ⟨V2, h2⟩ := ih2
    have hnum : ∀ e, g n = .dict e → e ∈ (asDict (g n)).toList ++ V1 ++ V2 := fun e he => by rw [he]; simp [asDict]
    have hd : ∀ d ∈ (asDict (g n)).toList, (asDict (g n)).getD [] = d := fun d hd => by rw [Option.mem_toList] at hd; rw [hd]; rfl
    refine ⟨(asDict (g n)).toList ++ V1 ++ V2, ?_, ?_, ?_, ?_, ?_, ?_, ?_⟩
    · rw [List.flatMap_append, List.flatMap_append, ← h1.names, ← h2.names]
      cases asDict (g n) <;> simp [namesOf, arrayAt]
    · intro root k1 k2 d hdm
      simp only [List.mem_append] at hdm
      have hr : ∀ e, asDict (g n) = some e → Node g root e := fun e he => k2 n gen e (by simp) (asDict_some he)
      rcases hdm with (hdm | hdm) | hdm
      · exact hr d (Option.mem_toList.1 hdm)
      · cases ha : asDict (g n) with
        | none => rw [ha] at h1; exact h1.node root (fun e' he => nomatch he) (fun m gen e' he hm => nomatch he) d hdm
        | some e => rw [ha] at h1; exact h1.node root (fun e' he => .direct (hr e ha) he) (fun m gen e' he hm => .indirect (hr e ha) he hm) d hdm
      · exact h2.node root (fun e he => k1 e (by simp [he])) (fun n gen e he => k2 n gen e (by simp [he])) d hdm
    · intro d hdm e he
      simp only [List.mem_append] at hdm ⊢
      rcases hdm with (hdm | hdm) | hdm
      · rw [hd d hdm] at h1; exact .inl (.inr (h1.todoDict e he))
      · exact .inl (.inr (h1.dict d hdm e he))
      · exact .inr (h2.dict d hdm e he)
    · intro d hdm m gen' hm
      simp only [List.mem_append] at hdm
      have k1 : m ∈ n :: seen ∨ m ∈ bn → m ∈ seen ∨ m ∈ n :: bn ++ rn := by grind
      have k2 : m ∈ n :: bn ++ seen ∨ m ∈ rn → m ∈ seen ∨ m ∈ n :: bn ++ rn := by grind
      rcases hdm with (hdm | hdm) | hdm
      · rw [hd d hdm] at h1; exact k1 (h1.todoRef m gen' hm)
      · exact k1 (h1.ref d hdm m gen' hm)
      · exact k2 (h2.ref d hdm m gen' hm)
    · intro m hm e he
      simp only [List.cons_append, List.mem_cons, List.mem_append] at hm
      rcases hm with rfl | hm | hm
      · exact hnum e he
      · have := h1.num m hm e he; grind
      · have := h2.num m hm e he; grind
    · intro e he
      have := h2.todoDict e (by simpa using he); grind
    · intro m gen' hm
      rcases List.mem_cons.1 hm with hm | hm
      · cases hm; exact .inr (by simp)
      · have := h2.todoRef m gen' hm; grind
  | @direct seen o todo b bn r rn ho _ _ ih1 ih2 =>
    obtain ⟨V1, h1⟩ := ih1
    obtain ⟨V2, h2⟩ := ih2
    have hd : ∀ d ∈ (asDict o).toList, (asDict o).getD [] = d := fun d hd => by rw [Option.mem_toList] at hd; rw [hd]; rfl
    refine ⟨(asDict o).toList ++ V1 ++ V2, ?_, ?_, ?_, ?_, ?_, ?_, ?_⟩
    · rw [List.flatMap_append, List.flatMap_append, ← h1.names, ← h2.names]
      cases asDict o <;> simp [namesOf, arrayAt]
    · intro root k1 k2 d hdm
      simp only [List.mem_append] at hdm
      have hr : ∀ e, asDict o = some e → Node g root e := fun e he => k1 e (by rw [← asDict_some he]; simp)
      rcases hdm with (hdm | hdm) | hdm
      · exact hr d (Option.mem_toList.1 hdm)
      · cases ha : asDict o with
        | none => rw [ha] at h1; exact h1.node root (fun e' he => nomatch he) (fun m gen e' he hm => nomatch he) d hdm
        | some e => rw [ha] at h1; exact h1.node root (fun e' he => .direct (hr e ha) he) (fun m gen e' he hm => .indirect (hr e ha) he hm) d hdm
      · exact h2.node root (fun e he => k1 e (by simp [he])) (fun n gen e he => k2 n gen e (by simp [he])) d hdm
    · intro d hdm e he
      simp only [List.mem_append] at hdm ⊢
      rcases hdm with (hdm | hdm) | hdm
      · rw [hd d hdm] at h1; exact .inl (.inr (h1.todoDict e he))
      · exact .inl (.inr (h1.dict d hdm e he))
      · exact .inr (h2.dict d hdm e he)
    · intro d hdm m gen' hm
      simp only [List.mem_append] at hdm
      have k1 : m ∈ seen ∨ m ∈ bn → m ∈ seen ∨ m ∈ bn ++ rn := by grind
      have k2 : m ∈ bn ++ seen ∨ m ∈ rn → m ∈ seen ∨ m ∈ bn ++ rn := by grind
      rcases hdm with (hdm | hdm) | hdm
      · rw [hd d hdm] at h1; exact k1 (h1.todoRef m gen' hm)
      · exact k1 (h1.ref d hdm m gen' hm)
      · exact k2 (h2.ref d hdm m gen' hm)
    · intro m hm e he
      rcases List.mem_append.1 hm with hm | hm
      · have := h1.num m hm e he; grind
      · have := h2.num m hm e he; grind
    · intro e he
      rcases List.mem_cons.1 he with he | he
      · subst he; simp [asDict]
      · have := h2.todoDict e he; grind
    · intro m gen' hm
      rcases List.mem_cons.1 hm with hm | hm
      · exact absurd hm.symm (ho m gen')
      · have := h2.todoRef m gen' hm; grind

theorem Visited.all {g : Int → Obj} {root : Dict} {names : List Obj} {ns : List Int} {V : List Dict} (hV : Visited g [] (kidsOf g root) names ns V) {e : Dict} (he : Node g root e) : e = root ∨ e ∈ V := by
  induction he with
  | root => exact .inl rfl
  | direct _ hk ih =>
    rcases ih with rfl | ih
    · exact .inr (hV.todoDict _ hk)
    · exact .inr (hV.dict _ ih _ hk)
  | indirect _ hk hgn ih =>
    rcases ih with rfl | ih
    · exact .inr (hV.num _ ((hV.todoRef _ _ hk).resolve_left (by simp)) _ hgn)
    · exact .inr (hV.num _ ((hV.ref _ ih _ _ hk).resolve_left (by simp)) _ hgn)

/-- what is found: the names of the nodes, one after the other -/
theorem Spec.NameDfs.blocks {g : Int → Obj} {root : Dict} {names : List Obj} {ns : List Int} (h : NameDfs g [] (kidsOf g root) names ns) :
    ∃ V : List Dict, (∀ e, e ∈ V ↔ Node g root e) ∧ namesOf g root ++ names = V.flatMap (namesOf g) := by
  obtain ⟨V, hV⟩ := h.visited
  refine ⟨root :: V, fun e => ⟨fun he => ?_, fun he => List.mem_cons.2 (hV.all he)⟩, by rw [List.flatMap_cons, ← hV.names]⟩
  rcases List.mem_cons.1 he with rfl | he
  · exact .root
  · exact hV.node root (fun e he => .direct .root he) (fun n gen e he hn => .indirect .root he hn) e he

/-- the names of every node are found -/
theorem Spec.NameDfs.complete {g : Int → Obj} {root : Dict} {names : List Obj} {ns : List Int} (h : NameDfs g [] (kidsOf g root) names ns) {e : Dict}
    (he : Node g root e) : ∀ x ∈ namesOf g e, x ∈ namesOf g root ++ names := by
  obtain ⟨V, h1, h2⟩ := h.blocks
  intro x hx
  rw [h2]
  exact List.mem_flatMap.2 ⟨e, (h1 e).2 he, hx⟩

/-! ### Ways down -/

/-- ways down from this node that use only kids given as dictionaries are shorter than this -/
def Deep (g : Int → Obj) : Nat → Dict → Prop
  | 0, _ => False
  | n + 1, d => ∀ e, .dict e ∈ kidsOf g d → Deep g n e

theorem Deep.mono {g : Int → Obj} {n m : Nat} : ∀ {d : Dict}, Deep g n d → n ≤ m → Deep g m d := by
  induction n generalizing m with
  | zero => intro d h; cases h
  | succ n ih =>
    intro d h hm
    obtain ⟨m, rfl⟩ : ∃ m', m = m' + 1 := ⟨m - 1, by omega⟩
    exact fun e he => ih (h e he) (by omega)

theorem not_deep_step {g : Int → Obj} {d : Dict} (h : ∀ n, ¬ Deep g n d) : ∃ e, .dict e ∈ kidsOf g d ∧ ∀ n, ¬ Deep g n e := by
  refine Classical.byContradiction fun hno => ?_
  have hall : ∀ l : List Obj, (∀ e, .dict e ∈ l → .dict e ∈ kidsOf g d) → ∃ n, ∀ e, .dict e ∈ l → Deep g n e := by
    intro l
    induction l with
    | nil => intro _; exact ⟨0, by simp⟩
    | cons o t ih =>
      intro hs
      obtain ⟨n, hn⟩ := ih fun e he => hs e (by simp [he])
      cases ho : asDict o with
      | none =>
        refine ⟨n, fun e he => ?_⟩
        rcases List.mem_cons.1 he with rfl | he
        · cases ho
        · exact hn e he
      | some e =>
        obtain rfl := asDict_some ho
        obtain ⟨m, hm⟩ : ∃ m, Deep g m e := Classical.byContradiction fun hc => hno ⟨e, hs e (by simp), fun n hn => hc ⟨n, hn⟩⟩
        refine ⟨max n m, fun e' he => ?_⟩
        rcases List.mem_cons.1 he with he | he
        · cases he; exact hm.mono (Nat.le_max_right _ _)
        · exact (hn e' he).mono (Nat.le_max_left _ _)
  obtain ⟨n, hn⟩ := hall (kidsOf g d) fun _ h => h
  exact h (n + 1) hn

theorem deep_of_ends {g : Int → Obj} {d : Dict} (h : ¬ Endless g d) : ∃ n, Deep g n d := by
  refine Classical.byContradiction fun hno => h ?_
  let nxt : {d : Dict // ∀ n, ¬ Deep g n d} → {d : Dict // ∀ n, ¬ Deep g n d} := fun x => ⟨Classical.choose (not_deep_step x.2), (Classical.choose_spec (not_deep_step x.2)).2⟩
  let way : Nat → {d : Dict // ∀ n, ¬ Deep g n d} := fun i => Nat.rec ⟨d, fun n hn => hno ⟨n, hn⟩⟩ (fun _ x => nxt x) i
  exact ⟨fun i => (way i).1, rfl, fun i => (Classical.choose_spec (not_deep_step (way i).2)).1⟩

theorem Deep.ends {g : Int → Obj} {n : Nat} : ∀ {d : Dict}, Deep g n d → ¬ Endless g d := by
  induction n with
  | zero => intro d h; cases h
  | succ n ih =>
    rintro d h ⟨way, h0, hw⟩
    exact ih (h (way 1) (h0 ▸ hw 0)) ⟨fun i => way (i + 1), rfl, fun i => hw (i + 1)⟩

theorem Spec.Endless.next {g : Int → Obj} {d : Dict} : Endless g d → ∃ e, .dict e ∈ kidsOf g d ∧ Endless g e := by
  rintro ⟨way, rfl, hw⟩
  exact ⟨way 1, hw 0, fun i => way (i + 1), rfl, fun i => hw (i + 1)⟩

/-- a search that ends meets no endless way -/
theorem Spec.NameDfs.ends {g : Int → Obj} {seen : List Int} {todo names : List Obj} {ns : List Int} (h : NameDfs g seen todo names ns) :
    (∀ e, .dict e ∈ todo → ¬ Endless g e) ∧ ∀ n ∈ ns, ∀ e, g n = .dict e → ¬ Endless g e := by
  have up : ∀ {d : Dict}, (∀ e, .dict e ∈ kidsOf g d → ¬ Endless g e) → ¬ Endless g d := fun h he => by
    obtain ⟨e, h1, h2⟩ := he.next
    exact h e h1 h2
  induction h with
  | done => exact ⟨by simp, by simp⟩
  | skip hn _ ih => exact ⟨fun e he => ih.1 e (by simpa using he), ih.2⟩
  | visit hn _ _ ih1 ih2 =>
    refine ⟨fun e he => ih2.1 e (by simpa using he), fun m hm e he => ?_⟩
    simp only [List.mem_append, List.mem_cons] at hm
    rcases hm with (rfl | hm) | hm
    · rw [he] at ih1
      exact up ih1.1
    · exact ih1.2 m hm e he
    · exact ih2.2 m hm e he
  | direct ho _ _ ih1 ih2 =>
    refine ⟨fun e he => ?_, fun m hm e he => ?_⟩
    · rcases List.mem_cons.1 he with rfl | he
      · exact up ih1.1
      · exact ih2.1 e he
    · rcases List.mem_append.1 hm with hm | hm
      · exact ih1.2 m hm e he
      · exact ih2.2 m hm e he

/-- no node of a tree that is searched to the end has an endless way down -/
theorem Spec.NameDfs.ends_all {g : Int → Obj} {root : Dict} {names : List Obj} {ns : List Int} (h : NameDfs g [] (kidsOf g root) names ns) {e : Dict} (he : Node g root e) : ¬ Endless g e := by
  have hroot : ¬ Endless g root := fun hr => by
    obtain ⟨e, h1, h2⟩ := hr.next
    exact h.ends.1 e h1 h2
  obtain ⟨V, hV⟩ := h.visited
  induction he with
  | root => exact hroot
  | direct _ hk ih =>
    rename_i d e _
    refine fun hr => ih ?_
    obtain ⟨way, h0, hw⟩ := hr
    refine ⟨fun i => match i with | 0 => d | i + 1 => way i, rfl, fun i => ?_⟩
    cases i with
    | zero => show Obj.dict (way 0) ∈ _; rw [h0]; exact hk
    | succ i => exact hw i
  | indirect hd hk hgn _ =>
    refine h.ends.2 _ ?_ _ hgn
    rcases hV.all hd with rfl | hdV
    · exact (hV.todoRef _ _ hk).resolve_left (by simp)
    · exact (hV.ref _ hdV _ _ hk).resolve_left (by simp)

/-! ### What the traversals return -/

theorem nextOf_dict {g : Int → Obj} {n : Int} {d : Dict} (h : asDict (g n) = some d) : nextOf g n = refs (kidsOf g d) := by
  rw [nextOf]
  cases hn : g n <;> rw [hn] at h <;> cases h
  rfl

theorem nextOf_none {g : Int → Obj} {n : Int} (h : asDict (g n) = none) : nextOf g n = [] := by
  rw [nextOf]
  cases hn : g n <;> rw [hn] at h <;> first | rfl | cases h

theorem resolveKidsLoop_seen {rs : Resolver} {f : Nat} {n gen : Int} {kids : List Obj} {acc : List Dict} {seen : List Int} (hn : n ∈ seen) :
    resolveKidsLoop rs (f + 1) (.ref n gen :: kids) acc seen = resolveKidsLoop rs f kids acc seen := by
  simp only [resolveKidsLoop, hn, if_true]

theorem resolveKidsLoop_ref {rs : Resolver} {f : Nat} {n gen : Int} {kids : List Obj} {acc : List Dict} {seen : List Int} (hn : n ∉ seen) :
    resolveKidsLoop rs (f + 1) (.ref n gen :: kids) acc seen = (rs n >>= fun o => match asDict o.value with
      | some kd => resolveKids rs f kd (n :: seen) >>= fun p => resolveKidsLoop rs f kids (acc ++ p.1) p.2
      | none => resolveKidsLoop rs f kids acc (n :: seen)) := by
  rw [resolveKidsLoop]
  dsimp only
  rw [if_neg hn]
  congr 1
  funext o
  cases o.value <;> rfl

theorem resolveKidsLoop_other {rs : Resolver} {f : Nat} {kid : Obj} (hr : ∀ n gen, kid ≠ .ref n gen) {kids : List Obj} {acc : List Dict} {seen : List Int} :
    resolveKidsLoop rs (f + 1) (kid :: kids) acc seen = resolveKidsLoop rs f kids acc seen := by
  cases kid <;> first | exact absurd rfl (hr _ _) | simp only [resolveKidsLoop]

theorem nameTreeKids_seen {rs : Resolver} {f : Nat} {n gen : Int} {kids acc : List Obj} {seen : List Int} (hn : n ∈ seen) :
    nameTreeKids rs (f + 1) (.ref n gen :: kids) acc seen = nameTreeKids rs f kids acc seen := by
  simp only [nameTreeKids, hn, if_true]

theorem nameTreeKids_ref {rs : Resolver} {f : Nat} {n gen : Int} {kids acc : List Obj} {seen : List Int} (hn : n ∉ seen) :
    nameTreeKids rs (f + 1) (.ref n gen :: kids) acc seen = (rs n >>= fun o => nameTree rs f ((asDict o.value).getD []) (n :: seen) >>= fun p =>
      nameTreeKids rs f kids (acc ++ p.1) p.2) := by
  rw [nameTreeKids]
  dsimp only
  rw [if_neg hn]
  rfl

theorem nameTreeKids_direct {rs : Resolver} {f : Nat} {kid : Obj} (hr : ∀ n gen, kid ≠ .ref n gen) {kids acc : List Obj} {seen : List Int} :
    nameTreeKids rs (f + 1) (kid :: kids) acc seen = (nameTree rs f ((asDict kid).getD []) seen >>= fun p => nameTreeKids rs f kids (acc ++ p.1) p.2) := by
  cases kid <;> first | exact absurd rfl (hr _ _) | (simp only [nameTreeKids]; rfl)

theorem Spec.NameDfs.congr {g : Int → Obj} {seen : List Int} {todo names : List Obj} {ns : List Int} (h : NameDfs g seen todo names ns) :
    ∀ {seen'}, (∀ n, n ∈ seen ↔ n ∈ seen') → NameDfs g seen' todo names ns := by
  induction h with
  | done => intro _ _; exact .done
  | skip hn _ ih => intro seen' hs; exact .skip ((hs _).1 hn) (ih hs)
  | visit hn _ _ ih1 ih2 =>
    intro seen' hs
    exact .visit (fun h => hn ((hs _).2 h)) (ih1 fun m => by simp [hs]) (ih2 fun m => by simp [hs])
  | direct ho _ _ ih1 ih2 =>
    intro seen' hs
    exact .direct ho (ih1 hs) (ih2 fun m => by simp [hs])

section
variable {rs : Resolver} {g : Int → Obj} (hg : Graph rs g)
include hg

theorem getArray_graph {d : Dict} {key : Bytes} {s s' : PS} {v : Option (List Obj)} (h : Dict.getArray rs d key s = .ok (v, s')) : v.getD [] = arrayAt g d key := by
  rw [arrayAt]
  cases hk : d.get? key with
  | none =>
    rw [Dict.getArray_none _ hk] at h
    cases h; rfl
  | some o =>
    by_cases ho : ∃ n gen, o = .ref n gen
    · obtain ⟨n, gen, rfl⟩ := ho
      rw [Dict.getArray, Dict.getObject, hk] at h
      obtain ⟨ov, s1, h1, h⟩ := St.bind_ok h
      cases h
      obtain ⟨w, s2, h2, h1⟩ := St.bind_ok h1
      cases h1
      obtain ⟨i, s3, h3, h2⟩ := St.bind_ok h2
      cases h2
      show (Obj.asArr? i.value).getD [] = match g n with | .arr l => l | _ => []
      rw [hg n _ _ _ h3]
      cases g n <;> rfl
    · have hr : ∀ n gen, o ≠ .ref n gen := fun n gen e => ho ⟨n, gen, e⟩
      rw [Dict.getArray_direct _ hk hr] at h
      cases h
      cases o <;> first | rfl | exact absurd rfl (hr _ _)

theorem resolveKids_dfs (f : Nat) : (∀ (d : Dict) (seen : List Int) (s s' : PS) (l : List Dict) (seen' : List Int), resolveKids rs f d seen s = .ok ((l, seen'), s') →
      ∃ ns, Dfs (nextOf g) seen (refs (kidsOf g d)) ns ∧ l = d :: ns.filterMap (fun n => asDict (g n)) ∧ ∀ n, n ∈ seen' ↔ n ∈ ns ∨ n ∈ seen) ∧
    (∀ (kids : List Obj) (acc : List Dict) (seen : List Int) (s s' : PS) (l : List Dict) (seen' : List Int), resolveKidsLoop rs f kids acc seen s = .ok ((l, seen'), s') →
      ∃ ns, Dfs (nextOf g) seen (refs kids) ns ∧ l = acc ++ ns.filterMap (fun n => asDict (g n)) ∧ ∀ n, n ∈ seen' ↔ n ∈ ns ∨ n ∈ seen) := by
  induction f with
  | zero =>
    refine ⟨fun d seen s s' l seen' h => ?_, fun kids acc seen s s' l seen' h => ?_⟩
    · rw [resolveKids] at h; cases h
    · rw [resolveKidsLoop] at h; cases h
  | succ f ih =>
    obtain ⟨ih1, ih2⟩ := ih
    constructor
    · intro d seen s s' l seen' h
      rw [resolveKids] at h
      obtain ⟨a, s1, h1, h⟩ := St.bind_ok h
      have hk : a.getD [] = kidsOf g d := getArray_graph hg h1
      rw [← hk]
      cases a with
      | none => cases h; exact ⟨[], .done, rfl, by simp⟩
      | some kids => exact ih2 _ _ _ _ _ _ _ h
    · intro kids acc seen s s' l seen' h
      cases kids with
      | nil =>
        rw [resolveKidsLoop] at h
        cases h
        exact ⟨[], .done, by simp, by simp⟩
      | cons kid kids =>
        by_cases ho : ∃ n gen, kid = .ref n gen
        · obtain ⟨n, gen, rfl⟩ := ho
          by_cases hn : n ∈ seen
          · rw [resolveKidsLoop_seen hn] at h
            obtain ⟨ns, h1, h2, h3⟩ := ih2 _ _ _ _ _ _ _ h
            exact ⟨ns, .skip hn h1, h2, h3⟩
          · rw [resolveKidsLoop_ref hn] at h
            obtain ⟨o, s1, h1, h⟩ := St.bind_ok h
            rw [hg n _ _ _ h1] at h
            cases hd : asDict (g n) with
            | some kd =>
              rw [hd] at h
              obtain ⟨⟨l1, seen1⟩, s2, h2, h⟩ := St.bind_ok h
              obtain ⟨ns1, a1, a2, a3⟩ := ih1 _ _ _ _ _ _ h2
              obtain ⟨ns2, b1, b2, b3⟩ := ih2 _ _ _ _ _ _ _ h
              refine ⟨n :: ns1 ++ ns2, .visit hn (by rw [nextOf_dict hd]; exact a1) (b1.congr fun m => by rw [a3]; grind), ?_, fun m => ?_⟩
              · rw [b2, a2, List.cons_append, List.filterMap_cons, hd]
                simp
              · rw [b3, a3]; grind
            | none =>
              rw [hd] at h
              obtain ⟨ns2, b1, b2, b3⟩ := ih2 _ _ _ _ _ _ _ h
              refine ⟨n :: [] ++ ns2, .visit hn (by rw [nextOf_none hd]; exact .done) b1, ?_, fun m => ?_⟩
              · rw [b2]
                simp [hd]
              · rw [b3]; grind
        · have hr : ∀ n gen, kid ≠ .ref n gen := fun n gen e => ho ⟨n, gen, e⟩
          have e2 : refs (kid :: kids) = refs kids := by
            cases kid <;> first | rfl | exact absurd rfl (hr _ _)
          rw [resolveKidsLoop_other hr] at h
          rw [e2]
          exact ih2 _ _ _ _ _ _ _ h

theorem nameTree_dfs (f : Nat) : (∀ (d : Dict) (seen : List Int) (s s' : PS) (l : List Obj) (seen' : List Int), nameTree rs f d seen s = .ok ((l, seen'), s') →
      ∃ b bn, NameDfs g seen (kidsOf g d) b bn ∧ l = namesOf g d ++ b ∧ ∀ n, n ∈ seen' ↔ n ∈ bn ∨ n ∈ seen) ∧
    (∀ (kids acc : List Obj) (seen : List Int) (s s' : PS) (l : List Obj) (seen' : List Int), nameTreeKids rs f kids acc seen s = .ok ((l, seen'), s') →
      ∃ b bn, NameDfs g seen kids b bn ∧ l = acc ++ b ∧ ∀ n, n ∈ seen' ↔ n ∈ bn ∨ n ∈ seen) := by
  induction f with
  | zero =>
    refine ⟨fun d seen s s' l seen' h => ?_, fun kids acc seen s s' l seen' h => ?_⟩
    · rw [nameTree] at h; cases h
    · rw [nameTreeKids] at h; cases h
  | succ f ih =>
    obtain ⟨ih1, ih2⟩ := ih
    constructor
    · intro d seen s s' l seen' h
      rw [nameTree] at h
      obtain ⟨a, s1, h1, h⟩ := St.bind_ok h
      obtain ⟨b, s2, h2, h⟩ := St.bind_ok h
      rw [show a.getD [] = namesOf g d from getArray_graph hg h1] at h
      rw [← show b.getD [] = kidsOf g d from getArray_graph hg h2]
      cases b with
      | none => cases h; exact ⟨[], [], .done, by simp, by simp⟩
      | some kids => exact ih2 _ _ _ _ _ _ _ h
    · intro kids acc seen s s' l seen' h
      cases kids with
      | nil =>
        rw [nameTreeKids] at h
        cases h
        exact ⟨[], [], .done, by simp, by simp⟩
      | cons kid kids =>
        by_cases ho : ∃ n gen, kid = .ref n gen
        · obtain ⟨n, gen, rfl⟩ := ho
          by_cases hn : n ∈ seen
          · rw [nameTreeKids_seen hn] at h
            obtain ⟨b, bn, h1, h2, h3⟩ := ih2 _ _ _ _ _ _ _ h
            exact ⟨b, bn, .skip hn h1, h2, h3⟩
          · rw [nameTreeKids_ref hn] at h
            obtain ⟨o, s1, h1, h⟩ := St.bind_ok h
            rw [hg n _ _ _ h1] at h
            obtain ⟨⟨l1, seen1⟩, s2, h2, h⟩ := St.bind_ok h
            obtain ⟨b1, n1, p1, p2, p3⟩ := ih1 _ _ _ _ _ _ h2
            obtain ⟨b2, n2, q1, q2, q3⟩ := ih2 _ _ _ _ _ _ _ h
            refine ⟨_, _, .visit hn p1 (q1.congr fun m => by rw [p3]; grind), ?_, fun m => ?_⟩
            · rw [q2, p2]; simp
            · rw [q3, p3]; grind
        · have hr : ∀ n gen, kid ≠ .ref n gen := fun n gen e => ho ⟨n, gen, e⟩
          rw [nameTreeKids_direct hr] at h
          obtain ⟨⟨l1, seen1⟩, s2, h2, h⟩ := St.bind_ok h
          obtain ⟨b1, n1, p1, p2, p3⟩ := ih1 _ _ _ _ _ _ h2
          obtain ⟨b2, n2, q1, q2, q3⟩ := ih2 _ _ _ _ _ _ _ h
          refine ⟨_, _, .direct hr p1 (q1.congr fun m => by rw [p3]; grind), ?_, fun m => ?_⟩
          · rw [q2, p2]; simp
          · rw [q3, p3]; grind

theorem getDict_graph {d : Dict} {key : Bytes} {s s' : PS} {v : Option Dict} (h : Dict.getDict rs d key s = .ok (v, s')) : v = (d.get? key).bind fun o => asDict (target g o) := by
  cases hk : d.get? key with
  | none =>
    rw [Dict.getDict_none _ hk] at h
    cases h; rfl
  | some o =>
    by_cases ho : ∃ n gen, o = .ref n gen
    · obtain ⟨n, gen, rfl⟩ := ho
      rw [Dict.getDict, Dict.getObject, hk] at h
      obtain ⟨ov, s1, h1, h⟩ := St.bind_ok h
      cases h
      obtain ⟨w, s2, h2, h1⟩ := St.bind_ok h1
      cases h1
      obtain ⟨i, s3, h3, h2⟩ := St.bind_ok h2
      cases h2
      show Obj.asDict? i.value = asDict (g n)
      rw [hg n _ _ _ h3]
      cases g n <;> rfl
    · have hr : ∀ n gen, o ≠ .ref n gen := fun n gen e => ho ⟨n, gen, e⟩
      rw [Dict.getDict_direct _ hk hr] at h
      cases h
      cases o <;> first | exact absurd rfl (hr _ _) | rfl

end

/-! ### Termination -/

/-- A property of computations that sequencing keeps. -/
structure EndCl (P : ∀ {α : Type}, M α → Prop) : Prop where
  pure : ∀ {α : Type} (a : α), P (pure a : M α)
  bind : ∀ {α β : Type} {x : M α} {f : α → M β}, P x → (∀ s a t, x s = .ok (a, t) → P (f a)) → P (x >>= f)

/-- the computation does not run forever -/
def NoOof {α : Type} (x : M α) : Prop := ∀ s, x s ≠ .oof

theorem noOof_cl : EndCl NoOof where
  pure a s h := by cases h
  bind {α β x f} hx hf s h := by
    rw [St.bind_run] at h
    cases hs : x s with
    | ok p => rw [hs] at h; exact hf s p.1 p.2 hs _ h
    | panic w => rw [hs] at h; cases h
    | oof => exact hx s hs

theorem total_cl : EndCl fun {α} (x : M α) => Total x where
  pure a := Total.pure a
  bind hx hf := Total.bind hx hf

/-- how many of the numbers in `L` have not been seen -/
def left (L seen : List Int) : Nat := (L.filter fun n => decide (n ∉ seen)).length

theorem left_mono (L : List Int) {a b : List Int} (h : ∀ n ∈ a, n ∈ b) : left L b ≤ left L a := by
  rw [left, left]
  rw [← List.countP_eq_length_filter, ← List.countP_eq_length_filter]
  refine List.countP_mono_left fun n _ hn => ?_
  simp only [decide_eq_true_eq] at hn ⊢
  exact fun hh => hn (h n hh)

theorem left_lt {L seen : List Int} {n : Int} (hL : n ∈ L) (hn : n ∉ seen) : left L (n :: seen) < left L seen := by
  induction L with
  | nil => cases hL
  | cons a t ih =>
    have hm := left_mono t (a := seen) (b := n :: seen) (by simp; grind)
    rw [left] at hm ⊢
    rw [left] at hm ⊢
    rw [List.filter_cons, List.filter_cons]
    by_cases ha : a = n
    · subst ha
      simp only [List.mem_cons, true_or, not_true, decide_false, hn, not_false_eq_true, decide_true, if_true, List.length_cons]
      simp only [List.mem_cons] at hm
      simp only [Bool.false_eq_true, if_false]
      omega
    · have hL' : n ∈ t := by
        rcases List.mem_cons.1 hL with h | h
        · exact absurd h.symm ha
        · exact h
      have := ih hL'
      rw [left, left] at this
      by_cases hs : a ∈ seen
      · simp only [List.mem_cons, hs, or_true, not_true, decide_false, Bool.false_eq_true, if_false] at this ⊢
        exact this
      · simp only [List.mem_cons, hs, ha, or_self, not_false_eq_true, decide_true, if_true, List.length_cons] at this ⊢
        omega

section
variable {rs : Resolver} {g : Int → Obj} (hg : Graph rs g) {P : ∀ {α : Type}, M α → Prop} (hP : EndCl P) (hrs : ∀ n, P (rs n))
include hP hrs

theorem getObject_ends (d : Dict) (key : Bytes) : P (Dict.getObject rs d key) := by
  rw [Dict.getObject]
  split
  · rename_i o _
    refine hP.bind ?_ fun _ _ _ _ => hP.pure _
    cases o with
    | ref n gen => exact hP.bind (hrs n) fun _ _ _ _ => hP.pure _
    | _ => exact hP.pure _
  · exact hP.pure _

theorem getArray_ends (d : Dict) (key : Bytes) : P (Dict.getArray rs d key) := hP.bind (getObject_ends hP hrs d key) fun _ _ _ _ => hP.pure _
theorem getDict_ends (d : Dict) (key : Bytes) : P (Dict.getDict rs d key) := hP.bind (getObject_ends hP hrs d key) fun _ _ _ _ => hP.pure _

include hg
variable {L : List Int} (hL : ∀ n, n ∉ L → asDict (g n) = none)
include hL

theorem resolveKids_ends {K : Nat} (hK : ∀ n d, asDict (g n) = some d → (kidsOf g d).length ≤ K) (f : Nat) :
    (∀ d seen, (kidsOf g d).length ≤ K → (K + 2) * left L seen + (K + 2) ≤ f → P (resolveKids rs f d seen)) ∧
    (∀ kids acc seen, (K + 2) * left L seen + (kids.length + 1) ≤ f → P (resolveKidsLoop rs f kids acc seen)) := by
  induction f with
  | zero =>
    refine ⟨fun d seen _ h => ?_, fun kids acc seen h => ?_⟩
    · omega
    · omega
  | succ f ih =>
    obtain ⟨ih1, ih2⟩ := ih
    constructor
    · intro d seen hd hf
      rw [resolveKids]
      refine hP.bind (getArray_ends hP hrs _ _) fun s a t ha => ?_
      have hk : a.getD [] = kidsOf g d := getArray_graph hg ha
      cases a with
      | none => exact hP.pure _
      | some kids =>
        rw [← hk] at hd
        refine ih2 _ _ _ ?_
        simp only [Option.getD_some] at hd
        omega
    · intro kids acc seen hf
      cases kids with
      | nil => rw [resolveKidsLoop]; exact hP.pure _
      | cons kid kids =>
        rw [List.length_cons] at hf
        by_cases ho : ∃ n gen, kid = .ref n gen
        · obtain ⟨n, gen, rfl⟩ := ho
          by_cases hn : n ∈ seen
          · rw [resolveKidsLoop_seen hn]
            exact ih2 _ _ _ (by omega)
          · rw [resolveKidsLoop_ref hn]
            refine hP.bind (hrs n) fun s o t ho => ?_
            rw [hg n _ _ _ ho]
            cases hd : asDict (g n) with
            | none =>
              refine ih2 _ _ _ ?_
              have := Nat.mul_le_mul_left (K + 2) (left_mono L (a := seen) (b := n :: seen) (by grind))
              omega
            | some kd =>
              have hnL : n ∈ L := Classical.byContradiction fun h => by rw [hL n h] at hd; cases hd
              have h1 := Nat.mul_le_mul_left (K + 2) (left_lt hnL hn)
              rw [Nat.succ_eq_add_one, Nat.mul_add, Nat.mul_one] at h1
              refine hP.bind (ih1 _ _ (hK n kd hd) (by omega)) fun s p t hp => ?_
              obtain ⟨ns, -, -, h3⟩ := (resolveKids_dfs hg f).1 _ _ _ _ p.1 p.2 hp
              refine ih2 _ _ _ ?_
              have := Nat.mul_le_mul_left (K + 2) (left_mono L (a := seen) (b := p.2) fun m hm => (h3 m).2 (by simp [hm]))
              omega
        · have hr : ∀ n gen, kid ≠ .ref n gen := fun n gen e => ho ⟨n, gen, e⟩
          rw [resolveKidsLoop_other hr]
          exact ih2 _ _ _ (by omega)

theorem nameTree_empty {f : Nat} (hf : 2 ≤ f) (seen : List Int) : P (nameTree rs f [] seen) := by
  obtain ⟨f, rfl⟩ := Nat.exists_eq_add_of_le' hf
  rw [nameTree]
  refine hP.bind (getArray_ends hP hrs _ _) fun s a t ha => ?_
  refine hP.bind (getArray_ends hP hrs _ _) fun s b t hb => ?_
  have hk : b.getD [] = [] := getArray_graph hg hb
  cases b with
  | none => exact hP.pure _
  | some kids =>
    obtain rfl : kids = [] := hk
    show P (nameTreeKids rs (f + 1) [] _ _)
    rw [nameTreeKids]
    exact hP.pure _

theorem nameTreeKids_ends (k : Nat) : ∀ kids : List Obj, (∀ e, .dict e ∈ kids → ∃ F, ∀ f ≥ F, ∀ seen, left L seen ≤ k → P (nameTree rs f e seen)) →
    (∀ n gen e, .ref n gen ∈ kids → g n = .dict e → ∃ F, ∀ f ≥ F, ∀ seen, left L seen < k → P (nameTree rs f e seen)) →
    ∃ F, ∀ f ≥ F, ∀ acc seen, left L seen ≤ k → P (nameTreeKids rs f kids acc seen) := by
  intro kids
  induction kids with
  | nil =>
    intro _ _
    refine ⟨1, fun f hf acc seen _ => ?_⟩
    obtain ⟨f, rfl⟩ := Nat.exists_eq_add_of_le' hf
    rw [nameTreeKids]
    exact hP.pure _
  | cons kid kids ih =>
    intro h1 h2
    obtain ⟨F, hF⟩ := ih (fun e he => h1 e (by simp [he])) (fun n gen e he => h2 n gen e (by simp [he]))
    by_cases ho : ∃ n gen, kid = .ref n gen
    · obtain ⟨n, gen, rfl⟩ := ho
      obtain ⟨G, hG⟩ : ∃ G, ∀ f ≥ G, ∀ seen, n ∉ seen → left L seen ≤ k → P (nameTree rs f ((asDict (g n)).getD []) (n :: seen)) := by
        cases hd : asDict (g n) with
        | none => exact ⟨2, fun f hf seen _ _ => nameTree_empty hg hP hrs hL hf _⟩
        | some e =>
          have hnL : n ∈ L := Classical.byContradiction fun h => by rw [hL n h] at hd; cases hd
          obtain ⟨G, hG⟩ := h2 n gen e (by simp) (asDict_some hd)
          exact ⟨G, fun f hf seen hn hl => hG f hf _ (by have := left_lt hnL hn; omega)⟩
      refine ⟨max F G + 1, fun f hf acc seen hl => ?_⟩
      obtain ⟨f, rfl⟩ : ∃ f', f = f' + 1 := ⟨f - 1, by omega⟩
      by_cases hn : n ∈ seen
      · rw [nameTreeKids_seen hn]
        exact hF f (by omega) _ _ hl
      · rw [nameTreeKids_ref hn]
        refine hP.bind (hrs n) fun s o t ho => ?_
        rw [hg n _ _ _ ho]
        refine hP.bind (hG f (by omega) seen hn hl) fun s p t hp => ?_
        obtain ⟨b, bn, -, -, h3⟩ := (nameTree_dfs hg f).1 _ _ _ _ p.1 p.2 hp
        refine hF f (by omega) _ _ ?_
        have := left_mono L (a := seen) (b := p.2) fun m hm => (h3 m).2 (by simp [hm])
        omega
    · have hr : ∀ n gen, kid ≠ .ref n gen := fun n gen e => ho ⟨n, gen, e⟩
      obtain ⟨G, hG⟩ : ∃ G, ∀ f ≥ G, ∀ seen, left L seen ≤ k → P (nameTree rs f ((asDict kid).getD []) seen) := by
        cases hd : asDict kid with
        | none => exact ⟨2, fun f hf seen _ => nameTree_empty hg hP hrs hL hf _⟩
        | some e => exact h1 e (by rw [asDict_some hd]; simp)
      refine ⟨max F G + 1, fun f hf acc seen hl => ?_⟩
      obtain ⟨f, rfl⟩ : ∃ f', f = f' + 1 := ⟨f - 1, by omega⟩
      rw [nameTreeKids_direct hr]
      refine hP.bind (hG f (by omega) seen hl) fun s p t hp => ?_
      obtain ⟨b, bn, -, -, h3⟩ := (nameTree_dfs hg f).1 _ _ _ _ p.1 p.2 hp
      refine hF f (by omega) _ _ ?_
      have := left_mono L (a := seen) (b := p.2) fun m hm => (h3 m).2 (by simp [hm])
      omega

theorem nameTree_ends {root : Dict} (hdeep : ∀ d, Node g root d → ∃ n, Deep g n d) (k : Nat) : ∀ n d, Node g root d → Deep g n d →
    ∃ F, ∀ f ≥ F, ∀ seen, left L seen ≤ k → P (nameTree rs f d seen) := by
  have step : ∀ (k : Nat) (d : Dict), Node g root d → (∀ e, .dict e ∈ kidsOf g d → ∃ F, ∀ f ≥ F, ∀ seen, left L seen ≤ k → P (nameTree rs f e seen)) →
      (∀ e, Node g root e → ∃ F, ∀ f ≥ F, ∀ seen, left L seen < k → P (nameTree rs f e seen)) → ∃ F, ∀ f ≥ F, ∀ seen, left L seen ≤ k → P (nameTree rs f d seen) := by
    intro k d hd h1 h2
    obtain ⟨F, hF⟩ := nameTreeKids_ends hg hP hrs hL k (kidsOf g d) h1 fun n gen e he hn => h2 e (.indirect hd he hn)
    refine ⟨F + 1, fun f hf seen hl => ?_⟩
    obtain ⟨f, rfl⟩ : ∃ f', f = f' + 1 := ⟨f - 1, by omega⟩
    rw [nameTree]
    refine hP.bind (getArray_ends hP hrs _ _) fun s a t ha => ?_
    refine hP.bind (getArray_ends hP hrs _ _) fun s b t hb => ?_
    have hk : b.getD [] = kidsOf g d := getArray_graph hg hb
    cases b with
    | none => exact hP.pure _
    | some kids =>
      obtain rfl : kids = kidsOf g d := hk
      exact hF f (by omega) _ _ hl
  induction k with
  | zero =>
    intro n
    induction n with
    | zero => intro d _ h; cases h
    | succ n ih => intro d hd h; exact step 0 d hd (fun e he => ih e (.direct hd he) (h e he)) (fun e _ => ⟨0, fun f _ seen h => absurd h (by omega)⟩)
  | succ k ihk =>
    intro n
    induction n with
    | zero => intro d _ h; cases h
    | succ n ih =>
      intro d hd h
      refine step (k + 1) d hd (fun e he => ih e (.direct hd he) (h e he)) fun e he => ?_
      obtain ⟨m, hm⟩ := hdeep e he
      obtain ⟨F, hF⟩ := ihk m e he hm
      exact ⟨F, fun f hf seen hl => hF f hf seen (by omega)⟩

end

/-- Objects of a file: their values, null for numbers without an entry. -/
theorem exists_graph {env : Env} (hoff : NonnegOffsets env) (f : Nat) :
    ∃ g, Graph (resolver env f) g ∧ ∀ n, env.xref.get? n = none → asDict (g n) = none := by
  have : ∀ n, ∃ v, (∀ s o s', resolver env f n s = .ok (o, s') → o.value = v) ∧ (env.xref.get? n = none → asDict v = none) := by
    intro n
    cases hn : env.xref.get? n with
    | none =>
      refine ⟨Obj.null, fun s o s' h => ?_, fun _ => rfl⟩
      cases f with
      | zero =>
        rw [resolver, keepOffset, resolve] at h; cases h
      | succ f =>
        rw [resolver, keepOffset, resolve, if_neg (by simp), getObjectF, hn] at h
        cases h; rfl
    | some e =>
      obtain ⟨r, hr⟩ := resolver_fixed hoff f n
      cases r with
      | ok p =>
        refine ⟨p.1.value, fun s o s' h => ?_, fun h => by cases h⟩
        obtain ⟨s1, h1, -⟩ := hr s
        rw [h1] at h
        cases h; rfl
      | panic w => exact ⟨Obj.null, (fun s o s' h => by rw [show resolver env f n s = .panic w from hr s] at h; cases h), fun _ => rfl⟩
      | oof => exact ⟨Obj.null, (fun s o s' h => by rw [show resolver env f n s = .oof from hr s] at h; cases h), fun _ => rfl⟩
  obtain ⟨g, hg⟩ := Classical.axiomOfChoice this
  exact ⟨g, fun n s o s' h => (hg n).1 s o s' h, fun n => (hg n).2⟩

end Pdf
