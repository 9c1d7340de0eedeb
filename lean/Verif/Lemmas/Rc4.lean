import Verif.Lemmas.Lex
import Verif.Model.Crypt
import Verif.Spec.Rc4
/-!
`rc4` is RC4.
-/

namespace Pdf
open Spec

/-- The list holds the values of the function. -/
def Holds256 (st : Bytes) (S : UInt8 → UInt8) : Prop := st.length = 256 ∧ ∀ x : UInt8, st.getD x.toNat 0 = S x

theorem holds_swap {st : Bytes} {S : UInt8 → UInt8} (h : Holds256 st S) (i j : UInt8) : Holds256 (rc4Swap st i.toNat j.toNat) (exchanged S i j) := by
  obtain ⟨h1, h2⟩ := h
  refine ⟨by simp [rc4Swap, h1], fun x => ?_⟩
  have hi := UInt8.toNat_lt i
  have hj := UInt8.toNat_lt j
  have hx := UInt8.toNat_lt x
  have e : ∀ y : UInt8, y = x ↔ y.toNat = x.toNat := fun y => ⟨fun h => by rw [h], fun h => UInt8.toNat_inj.1 h⟩
  rw [rc4Swap, h2, h2, exchanged, List.getD_eq_getElem?_getD, List.getElem?_set, List.getElem?_set, List.length_set, h1]
  by_cases c1 : x = j
  · subst c1; simp [hx]
  · have c1' : ¬ j.toNat = x.toNat := fun h => c1 ((e j).2 h).symm
    rw [if_neg c1', if_neg c1]
    by_cases c2 : x = i
    · subst c2; simp [hx]
    · have c2' : ¬ i.toNat = x.toNat := fun h => c2 ((e i).2 h).symm
      rw [if_neg c2', if_neg c2, ← List.getD_eq_getElem?_getD, h2]

theorem ksa_holds (key : Bytes) : ∀ (n i : Nat) (st : Bytes), i + n = 256 → Holds256 st (scheduled key i).2 → Holds256 (rc4Ksa key n (scheduled key i).1 st) (scheduled key 256).2
  | 0, i, st, hi, h => by obtain rfl : i = 256 := by omega
                          exact h
  | n + 1, i, st, hi, h => by
    rw [rc4Ksa]
    have e : 255 - n = i := by omega
    have ei : (UInt8.ofNat i).toNat = i := by rw [UInt8.toNat_ofNat']; omega
    have hs : st.getD i 0 = (scheduled key i).2 (UInt8.ofNat i) := by rw [← h.2, ei]
    simp only [e]
    rw [hs]
    have := holds_swap h (UInt8.ofNat i) ((scheduled key i).1 + (scheduled key i).2 (UInt8.ofNat i) + key.getD (i % key.length) 0)
    rw [ei] at this
    exact ksa_holds key n (i + 1) _ (by omega) this

theorem init_holds (key : Bytes) : Holds256 (rc4Init key) (scheduled key 256).2 := by
  refine ksa_holds key 256 0 _ rfl ⟨by simp, fun x => ?_⟩
  have := UInt8.toNat_lt x
  rw [List.getD_eq_getElem?_getD, List.getElem?_map, List.getElem?_range (by omega)]
  simp [scheduled]

theorem stream_eq (key : Bytes) : ∀ (n i : Nat) (st : Bytes), Holds256 st (generated key i).2 →
    rc4Stream n (UInt8.ofNat i) (generated key i).1 st = (List.range n).map fun k => streamByte key (i + k)
  | 0, _, _, _ => rfl
  | n + 1, i, st, h => by
    have ei : UInt8.ofNat i + 1 = UInt8.ofNat (i + 1) := by
      apply UInt8.toNat_inj.1
      rw [UInt8.toNat_add, UInt8.toNat_ofNat', UInt8.toNat_ofNat']
      show (i % 256 + 1) % 256 = (i + 1) % 256
      omega
    rw [rc4Stream]
    simp only [ei]
    rw [h.2]
    have hs := holds_swap h (UInt8.ofNat (i + 1)) ((generated key i).1 + (generated key i).2 (UInt8.ofNat (i + 1)))
    rw [hs.2, hs.2, hs.2]
    have ih := stream_eq key n (i + 1) _ hs
    rw [List.range_succ_eq_map, List.map_cons, List.map_map]
    refine List.cons_eq_cons.2 ⟨rfl, ?_⟩
    refine Eq.trans ih (List.map_congr_left fun k _ => ?_)
    show streamByte key (i + 1 + k) = streamByte key (i + (k + 1))
    congr 1; omega

theorem rc4_isRc4 (key p : Bytes) : IsRc4 key p (rc4 key p) := by
  have h := stream_eq key p.length 0 _ (init_holds key)
  have h' : rc4Stream p.length 0 0 (rc4Init key) = (List.range p.length).map fun k => streamByte key (0 + k) := h
  refine ⟨by simp [rc4, h'], fun n h1 h2 => ?_⟩
  simp only [rc4, h', List.getElem_zipWith, List.getElem_map, List.getElem_range, Nat.zero_add]

theorem IsRc4.unique {key p c c' : Bytes} (h : IsRc4 key p c) (h' : IsRc4 key p c') : c = c' := by
  refine List.ext_getElem (h.1.trans h'.1.symm) fun n h1 h2 => ?_
  rw [h.2 n (h.1 ▸ h1) h1, h'.2 n (h'.1 ▸ h2) h2]

end Pdf
