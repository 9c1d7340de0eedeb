import Verif.Props.Write
/-!
Edits that can be written, as a check that can be computed.
-/

namespace Pdf
open Spec Props

/-- A number with one fraction digit. -/
def tenthB (q : Rat) : Bool :=
  decide (0 < scale10 (if q < 0 then -q else q) 1 % 10 ∧ scale10 (if q < 0 then -q else q) 1 < 10000000 ∧ roundQ (mkRat (scale10 (if q < 0 then -q else q) 1) 10) = .fin (if q < 0 then -q else q))

theorem plain_tenth {q : Rat} (h : tenthB q = true) : Plain (.num (.fin q)) := by
  obtain ⟨h1, h2, h3⟩ := of_decide_eq_true h
  generalize scale10 (if q < 0 then -q else q) 1 = a at h1 h2 h3
  have e : mkRat a 10 = ((a / 10 : Nat) : Rat) + ((a % 10 : Nat) : Rat) / 10 := by
    rw [Rat.mkRat_eq_div]
    have : (a : Rat) = 10 * ((a / 10 : Nat) : Rat) + ((a % 10 : Nat) : Rat) := by exact_mod_cast (Nat.div_add_mod a 10).symm
    push_cast at this ⊢
    linarith
  have hr := (roundQ_rounded (q := mkRat a 10) (by rw [e]; positivity)).1
  rw [h3, e] at hr
  have := Plain.tenth (neg := decide (q < 0)) (by omega) h1 (Nat.mod_lt a (by norm_num)) hr
  by_cases hq : q < 0
  · simpa [hq] using this
  · simpa [hq] using this

mutual
/-- The value is of a kind that is read as it is printed (sufficient). -/
def plainB : Obj → Bool
  | .kw [] => false
  | .kw (b :: k) => decide (Spec.IsRegular b ∧ ¬ (48 ≤ b.toNat ∧ b.toNat ≤ 57) ∧ b ≠ 43 ∧ b ≠ 45 ∧ b ≠ 46 ∧ (∀ c ∈ k, Spec.IsRegular c) ∧ b :: k ≠ [82])
  | .num (.fin q) => decide (q.den = 1 ∧ 0 ≤ q.num ∧ q.num < 1000000) || tenthB q
  | .num _ => false
  | .name v => v.all (fun b => decide (Spec.IsRegular b ∧ b ≠ 35))
  | .str v => v.all (fun b => decide (b ≠ 40 ∧ b ≠ 41 ∧ b ≠ 92))
  | .ref n g => decide (0 ≤ n ∧ n < 2 ^ 53 ∧ 0 ≤ g ∧ g < 2 ^ 63)
  | .arr os => plainArrB os
  | .dict es => plainDictB es && decide (es.map (·.1)).Nodup
def plainArrB : List Obj → Bool
  | [] => true
  | o :: os => plainB o && plainArrB os
def plainDictB : List (Bytes × Obj) → Bool
  | [] => true
  | (k, o) :: es => k.all (fun b => decide (Spec.IsRegular b ∧ b ≠ 35)) && plainB o && plainDictB es
end

mutual
theorem plain_of_check : ∀ {o : Obj}, plainB o = true → Plain o
  | .kw [], h => by rw [plainB] at h; cases h
  | .kw (b :: k), h => by
    rw [plainB] at h
    obtain ⟨h1, h2, h3, h4, h5, h6, h7⟩ := of_decide_eq_true h
    exact .kw h1 h2 h3 h4 h5 h6 h7
  | .num (.fin q), h => by
    rw [plainB, Bool.or_eq_true] at h
    rcases h with h | h
    swap
    · exact plain_tenth h
    obtain ⟨h1, h2, h3⟩ := of_decide_eq_true h
    have : F64.fin q = intNum false q.num.toNat := by
      rw [intNum, if_neg (by simp), F64.fin.injEq]
      have e : ((q.num.toNat : Int) : Rat) = (q.num : Rat) := by rw [Int.toNat_of_nonneg h2]
      rw [show ((q.num.toNat : Nat) : Rat) = ((q.num.toNat : Int) : Rat) from rfl, e]
      exact (Rat.den_eq_one_iff q).1 h1 |>.symm
    rw [this]
    exact .int (by omega)
  | .num .negZero, h => by rw [plainB] at h; cases h; simp
  | .num (.inf _), h => by rw [plainB] at h; cases h; simp
  | .name v, h => by rw [plainB] at h; exact .name (regular_all h)
  | .str v, h => by rw [plainB] at h; exact .str (plain_all h)
  | .ref n g, h => by
    rw [plainB] at h
    obtain ⟨h1, h2, h3, h4⟩ := of_decide_eq_true h
    obtain ⟨n, rfl⟩ := Int.eq_ofNat_of_zero_le h1
    obtain ⟨g, rfl⟩ := Int.eq_ofNat_of_zero_le h3
    exact .ref (by omega) (by omega)
  | .arr os, h => by rw [plainB] at h; exact .arr (plainArr_of_check h)
  | .dict es, h => by
    rw [plainB, Bool.and_eq_true] at h
    exact .dict (plainDict_of_check h.1) (of_decide_eq_true h.2)
theorem plainArr_of_check : ∀ {os : List Obj}, plainArrB os = true → PlainArr os
  | [], _ => .nil
  | o :: os, h => by
    rw [plainArrB, Bool.and_eq_true] at h
    exact .cons (plain_of_check h.1) (plainArr_of_check h.2)
theorem plainDict_of_check : ∀ {es : List (Bytes × Obj)}, plainDictB es = true → PlainDict es
  | [], _ => .nil
  | (k, o) :: es, h => by
    rw [plainDictB, Bool.and_eq_true, Bool.and_eq_true] at h
    exact .cons (regular_all h.1.1) (plain_of_check h.1.2) (plainDict_of_check h.2)
end

/-- The object can be written (sufficient). -/
def writableObjB (o : IndObj) : Bool :=
  decide (0 ≤ o.number ∧ o.number < 2 ^ 62 ∧ 0 ≤ o.generation ∧ o.generation < 2 ^ 63) && plainB o.value && noHeaderB o.value.toBytes && !hasWord b!"xref" o.toBytes &&
    (match o.value with
      | .dict d => decide (Assoc.get? d b!"Type" ≠ some (.name b!"XRef"))
      | _ => true) &&
    (match o.stream, o.value with
      | none, _ => true
      | some data, .dict d => decide (Assoc.get? d b!"Filter" = none ∧ Assoc.get? d b!"DecodeParms" = none ∧ o.value.toBytes.length ≤ 4000) &&
          (match Assoc.get? d b!"Type" with | some (.ref _ _) => false | _ => true) && noHeaderB data && !hasWord endMark data
      | some _, _ => false)

/-- The edit can be written (sufficient). -/
def writableB (e : Edit) : Bool :=
  e.puts.all writableObjB && e.frees.all (fun n => decide (n < 2 ^ 62)) &&
    (match e.puts.head? with
      | some ⟨_, _, .dict d, _⟩ => decide (Assoc.get? d b!"Prev" = none ∧ Assoc.get? d b!"Encrypt" = none)
      | _ => true)

theorem writableObj_of_check {o : IndObj} (h : writableObjB o = true) : Reprintable o ∧ NotXref o ∧ o.number < 2 ^ 62 ∧ Lacks b!"xref" o.toBytes := by
  simp only [writableObjB, Bool.and_eq_true, Bool.not_eq_true'] at h
  obtain ⟨⟨⟨⟨⟨h1, h2⟩, h3⟩, h4⟩, h5⟩, h6⟩ := h
  obtain ⟨n1, n2, n3, n4⟩ := of_decide_eq_true h1
  refine ⟨⟨⟨n1, by omega⟩, ⟨n3, n4⟩, plain_of_check h2, noHeader_dec h3, fun data hd => ?_⟩, fun d hd => ?_, n2, lacks_dec h4⟩
  · rw [hd] at h6
    cases hv : o.value with
    | dict D =>
      rw [hv] at h6
      simp only [Bool.and_eq_true, Bool.not_eq_true'] at h6
      obtain ⟨⟨⟨k1, k2⟩, k3⟩, k4⟩ := h6
      obtain ⟨f1, f2, f3⟩ := of_decide_eq_true k1
      exact ⟨D, rfl, f1, f2, (fun a b hab => by rw [hab] at k2; cases k2), f3, noHeader_dec k3, lacks_dec k4⟩
    | _ => rw [hv] at h6; cases h6
  · rw [hd] at h5
    exact of_decide_eq_true h5

theorem writable_of_check {e : Edit} (h : writableB e = true) : e.Writable := by
  simp only [writableB, Bool.and_eq_true] at h
  obtain ⟨⟨h2, h3⟩, h4⟩ := h
  refine ⟨fun o ho => writableObj_of_check (List.all_eq_true.1 h2 o ho), fun n hn => of_decide_eq_true (List.all_eq_true.1 h3 n hn), fun o ho d hd => ?_⟩
  rw [ho] at h4
  obtain ⟨a, b, v, s⟩ := o
  cases hd
  exact of_decide_eq_true h4

/-- The object can be stored (sufficient). -/
def storedObjB (o : IndObj) : Bool :=
  decide (0 ≤ o.number ∧ o.number < 2 ^ 62 ∧ 0 ≤ o.generation ∧ o.generation < 2 ^ 63) && plainB o.value && noHeaderB o.value.toBytes && !hasWord b!"xref" o.toBytes &&
    (match o.value with
      | .dict d => decide (Assoc.get? d b!"Type" ≠ some (.name b!"XRef"))
      | _ => true) &&
    (match o.stream, o.value with
      | none, _ => true
      | some data, .dict _ => decide (o.value.toBytes.length ≤ 4000) && noHeaderB data && !hasWord endMark data
      | some _, _ => false)

/-- The edit can be stored (sufficient). -/
def storedB (e : Edit) : Bool :=
  e.puts.all storedObjB && e.frees.all (fun n => decide (n < 2 ^ 62)) &&
    (match e.puts.head? with
      | some ⟨_, _, .dict d, _⟩ => decide (Assoc.get? d b!"Prev" = none ∧ Assoc.get? d b!"Encrypt" = none)
      | _ => true)

theorem storedObj_of_check {o : IndObj} (h : storedObjB o = true) : Storable o ∧ NotXref o ∧ o.number < 2 ^ 62 ∧ Lacks b!"xref" o.toBytes := by
  simp only [storedObjB, Bool.and_eq_true, Bool.not_eq_true'] at h
  obtain ⟨⟨⟨⟨⟨h1, h2⟩, h3⟩, h4⟩, h5⟩, h6⟩ := h
  obtain ⟨n1, n2, n3, n4⟩ := of_decide_eq_true h1
  refine ⟨⟨⟨n1, by omega⟩, ⟨n3, n4⟩, plain_of_check h2, noHeader_dec h3, fun data hd => ?_⟩, fun d hd => ?_, n2, lacks_dec h4⟩
  · rw [hd] at h6
    cases hv : o.value with
    | dict D =>
      rw [hv] at h6
      simp only [Bool.and_eq_true, Bool.not_eq_true'] at h6
      obtain ⟨⟨k1, k3⟩, k4⟩ := h6
      exact ⟨D, rfl, of_decide_eq_true k1, noHeader_dec k3, lacks_dec k4⟩
    | _ => rw [hv] at h6; cases h6
  · rw [hd] at h5
    exact of_decide_eq_true h5

theorem stored_of_check {e : Edit} (h : storedB e = true) : e.Stored := by
  simp only [storedB, Bool.and_eq_true] at h
  obtain ⟨⟨h2, h3⟩, h4⟩ := h
  refine ⟨fun o ho => storedObj_of_check (List.all_eq_true.1 h2 o ho), fun n hn => of_decide_eq_true (List.all_eq_true.1 h3 n hn), fun o ho d hd => ?_⟩
  rw [ho] at h4
  obtain ⟨a, b, v, s⟩ := o
  cases hd
  exact of_decide_eq_true h4

end Pdf
