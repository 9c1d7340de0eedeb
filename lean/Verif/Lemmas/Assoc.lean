import Verif.Model.Monad
/-!
Go maps as association lists.
-/

namespace Pdf.Assoc
variable {κ α : Type} [DecidableEq κ]

@[simp] theorem get?_nil (k : κ) : get? ([] : Assoc κ α) k = none := rfl

theorem get?_cons (p : κ × α) (m : Assoc κ α) (k : κ) : get? (p :: m) k = if p.1 = k then some p.2 else get? m k := rfl

theorem get?_set (m : Assoc κ α) (k : κ) (v : α) (k' : κ) : get? (set m k v) k' = if k = k' then some v else get? m k' := by
  induction m with
  | nil => simp [set, get?]
  | cons p m ih =>
    obtain ⟨a, b⟩ := p
    rw [set]
    by_cases h : a = k
    · subst h
      simp only [if_true, get?_cons]
      split <;> rfl
    · simp only [h, if_false, get?_cons, ih]
      by_cases h1 : a = k'
      · subst h1
        simp [Ne.symm h]
      · simp [h1]

theorem get?_set_self (m : Assoc κ α) (k : κ) (v : α) : get? (set m k v) k = some v := by simp [get?_set]

theorem get?_set_ne (m : Assoc κ α) {k k' : κ} (v : α) (h : k ≠ k') : get? (set m k v) k' = get? m k' := by simp [get?_set, h]

theorem get?_some_mem {m : Assoc κ α} {k : κ} {v : α} (h : get? m k = some v) : (k, v) ∈ m := by
  induction m with
  | nil => cases h
  | cons p m ih =>
    rw [get?_cons] at h
    by_cases hk : p.1 = k
    · rw [if_pos hk] at h
      injection h with h
      rw [← hk, ← h]; exact List.mem_cons_self
    · rw [if_neg hk] at h
      exact List.mem_cons_of_mem _ (ih h)

theorem mem_set {m : Assoc κ α} {k : κ} {v : α} {p : κ × α} (h : p ∈ set m k v) : p = (k, v) ∨ p ∈ m := by
  induction m with
  | nil => simpa [set] using h
  | cons q m ih =>
    obtain ⟨a, b⟩ := q
    rw [set] at h
    split at h
    · rcases List.mem_cons.1 h with h | h
      · exact .inl h
      · exact .inr (List.mem_cons_of_mem _ h)
    · rcases List.mem_cons.1 h with h | h
      · exact .inr (h ▸ List.mem_cons_self)
      · rcases ih h with h | h
        · exact .inl h
        · exact .inr (List.mem_cons_of_mem _ h)

/-- Later entries override earlier ones. -/
theorem get?_foldl_set (es : List (κ × α)) (d : Assoc κ α) (k : κ) :
    get? (es.foldl (fun (d : Assoc κ α) e => set d e.1 e.2) d) k = ((es.reverse.find? fun p => p.1 = k).map (·.2)).or (get? d k) := by
  induction es generalizing d with
  | nil => simp
  | cons p es ih =>
    rw [List.foldl_cons, ih, List.reverse_cons, List.find?_append]
    cases es.reverse.find? (fun p => decide (p.1 = k)) with
    | some q => simp
    | none =>
      simp only [Option.map_none, Option.none_or, List.find?_singleton]
      rw [get?_set]
      by_cases hk : p.1 = k <;> simp [hk]

theorem get?_merge (m m2 : Assoc κ α) (k : κ) : get? (merge m m2) k = ((m2.reverse.find? fun p => p.1 = k).map (·.2)).or (get? m k) :=
  get?_foldl_set m2 m k

theorem get?_none_iff {m : Assoc κ α} {k : κ} : get? m k = none ↔ k ∉ m.map (·.1) := by
  induction m with
  | nil => simp
  | cons p m ih =>
    rw [get?_cons]
    by_cases h : p.1 = k
    · simp [h]
    · rw [if_neg h, ih, List.map_cons, List.mem_cons]
      simp [Ne.symm h]

/-! ### Maps with one entry per key -/

theorem keys_set (m : Assoc κ α) (k : κ) (v : α) : (set m k v).map (·.1) = if k ∈ m.map (·.1) then m.map (·.1) else m.map (·.1) ++ [k] := by
  induction m with
  | nil => simp [set]
  | cons p m ih =>
    obtain ⟨a, b⟩ := p
    rw [set]
    by_cases h : a = k
    · subst h; simp
    · simp only [h, if_false, List.map_cons, ih, List.mem_cons, Ne.symm h, false_or]
      split <;> simp

theorem nodup_set {m : Assoc κ α} (h : (m.map (·.1)).Nodup) (k : κ) (v : α) : ((set m k v).map (·.1)).Nodup := by
  rw [keys_set]
  split
  · exact h
  · rename_i hk
    rw [List.nodup_append]
    refine ⟨h, by simp, ?_⟩
    intro a ha b hb
    simp only [List.mem_singleton] at hb
    rw [hb]; exact fun e => hk (e ▸ ha)

theorem nodup_foldl {β : Type} (f : β → κ × α) (l : List β) : ∀ {m : Assoc κ α}, (m.map (·.1)).Nodup →
    ((l.foldl (fun (d : Assoc κ α) e => set d (f e).1 (f e).2) m).map (·.1)).Nodup := by
  induction l with
  | nil => intro m h; exact h
  | cons b l ih => intro m h; exact ih (nodup_set h _ _)

theorem find_reverse {m : Assoc κ α} (h : (m.map (·.1)).Nodup) (k : κ) : (m.reverse.find? fun p => p.1 = k).map (·.2) = get? m k := by
  induction m with
  | nil => rfl
  | cons p m ih =>
    rw [List.map_cons, List.nodup_cons] at h
    rw [List.reverse_cons, List.find?_append, get?_cons, Option.map_or, ih h.2]
    by_cases hk : p.1 = k
    · rw [if_pos hk, get?_none_iff.2 (hk ▸ h.1)]
      simp [hk]
    · rw [if_neg hk]
      simp [hk]

/-- Merging a map with one entry per key. -/
theorem get?_merge_uniq (m : Assoc κ α) {m2 : Assoc κ α} (h : (m2.map (·.1)).Nodup) (k : κ) :
    get? (merge m m2) k = (get? m2 k).or (get? m k) := by
  rw [get?_merge, find_reverse h]

theorem get?_perm {m m' : Assoc κ α} (hp : m.Perm m') (hnd : (m.map (·.1)).Nodup) (k : κ) : m.get? k = m'.get? k := by
  have hnd' : (m'.map (·.1)).Nodup := (hp.map _).nodup_iff.1 hnd
  have hone : ∀ {l : Assoc κ α}, (l.map (·.1)).Nodup → ∀ {v : α}, (k, v) ∈ l → l.get? k = some v := by
    intro l
    induction l with
    | nil => intro _ v h; cases h
    | cons p t ih =>
      intro hn v h
      rw [List.map_cons, List.nodup_cons] at hn
      rw [Assoc.get?_cons]
      rcases List.mem_cons.1 h with h | h
      · rw [← h, if_pos rfl]
      · rw [if_neg, ih hn.2 h]
        intro hk
        exact hn.1 (List.mem_map.2 ⟨(k, v), h, hk.symm⟩)
  cases h : m.get? k with
  | some v => exact (hone hnd' (hp.mem_iff.1 (Assoc.get?_some_mem h))).symm
  | none =>
    rw [Assoc.get?_none_iff] at h
    symm
    rw [Assoc.get?_none_iff]
    intro hk
    exact h ((hp.map _).mem_iff.2 hk)

theorem mem_of_get? {m : Assoc κ α} {k : κ} {v : α} (h : m.get? k = some v) : (k, v) ∈ m := get?_some_mem h

theorem get?_of_mem' {m : Assoc κ α} (h : (m.map (·.1)).Nodup) {k : κ} {v : α} (hm : (k, v) ∈ m) : m.get? k = some v := by
  induction m with
  | nil => cases hm
  | cons p t ih =>
    rw [List.map_cons, List.nodup_cons] at h
    rw [get?_cons]
    rcases List.mem_cons.1 hm with hm | hm
    · rw [← hm, if_pos rfl]
    · rw [if_neg, ih h.2 hm]
      intro hk
      exact h.1 (List.mem_map.2 ⟨(k, v), hm, hk.symm⟩)

theorem nodup_pairs {m : Assoc κ α} (h : (m.map (·.1)).Nodup) : List.Nodup m :=
  (List.pairwise_map.1 h).imp fun hn he => hn (congrArg Prod.fst he)

/-- Two lists for the same map. -/
theorem perm_of_get? {m m' : Assoc κ α} (h : (m.map (·.1)).Nodup) (h' : (m'.map (·.1)).Nodup) (he : ∀ k, m.get? k = m'.get? k) : m.Perm m' := by
  rw [List.perm_ext_iff_of_nodup (nodup_pairs h) (nodup_pairs h')]
  rintro ⟨k, v⟩
  constructor
  · intro hm; exact mem_of_get? (by rw [← he]; exact get?_of_mem' h hm)
  · intro hm; exact mem_of_get? (by rw [he]; exact get?_of_mem' h' hm)

end Pdf.Assoc

namespace Pdf

/-- A permutation of the list. -/
theorem shuffled {α : Type} (l : List α) {o : List Nat} (h : o.Perm (List.range l.length)) :
    (o.filterMap fun i => l[i]?).Perm l := by
  have h1 := h.filterMap (fun i => l[i]?)
  refine h1.trans (.of_eq ?_)
  clear h h1
  induction l with
  | nil => rfl
  | cons a t ih =>
    rw [List.length_cons, List.range_succ_eq_map, List.filterMap_cons]
    simp only [List.getElem?_cons_zero, List.filterMap_map]
    congr 1

theorem visited {α : Type} (ord : Order) (l : List α) : (ord.visit l).Perm l := shuffled l (ord.perm 0 _)

theorem visit_one {α : Type} (ord : Order) (a : α) : ord.visit [a] = [a] := List.perm_singleton.1 (visited ord [a])

end Pdf
