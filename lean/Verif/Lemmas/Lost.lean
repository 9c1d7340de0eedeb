import Verif.Lemmas.Document
/-!
Offsets at which nothing is loaded.
-/

namespace Pdf
open Spec St Props

/-- where a keyword was read, it is -/
theorem lKeyword_inv {l k : Bytes} (h : (lKeyword l).val = k) (hk : k ≠ []) : ∃ w r, l = w ++ (k ++ r) ∧ Blank w ∧ Stops r := by
  have h : kwGo (l.drop (skipWs false l)) = k := h
  obtain ⟨r, h1, h2⟩ := kwGo_prefix (l.drop (skipWs false l))
  rw [h] at h1
  have hne : l.drop (skipWs false l) ≠ [] := by
    intro e
    rw [e] at h1
    exact hk (List.append_eq_nil_iff.1 h1.symm).1
  refine ⟨l.take (skipWs false l), r, ?_, (blank_take l false hne).1 rfl, h2⟩
  rw [← h1, List.take_append_drop]

/-- where the header of an object was read, it is -/
theorem header_inv {file : Bytes} {s : PS} (h : (readObjectHeader file s).1.2.2 = true) : ∃ ds gs hd r, HeaderText ds gs hd ∧ Stops r ∧ rest file s = hd ++ r := by
  cases h1 : lInt (rest file s) with
  | none => rw [header_none h1] at h; cases h
  | some p =>
    obtain ⟨v, n⟩ := p
    obtain ⟨t, e, st⟩ := readInt_some h1
    obtain ⟨w, ds, r, k1, k2, k3, k4, k5, -⟩ := lInt_inv h1
    have hn : rest file t = r := by
      obtain ⟨y, -, k7⟩ := lInt_digits k2 ds k4 k3 r k5
      rw [← k1, h1] at k7
      cases k7
      rw [rest_eq st.pos, k1, ← List.append_assoc, List.drop_left' (by simp)]
    rw [readObjectHeader, e] at h
    dsimp only at h
    cases h2 : lInt (rest file t) with
    | none =>
      obtain ⟨u, e2, -⟩ := readInt_none h2
      rw [e2] at h; cases h
    | some q =>
      obtain ⟨v2, n2⟩ := q
      obtain ⟨u, e2, st2⟩ := readInt_some h2
      rw [e2] at h
      dsimp only at h
      obtain ⟨w1, gs, r1, j1, j2, j3, j4, j5, -⟩ := lInt_inv h2
      have hn2 : rest file u = r1 := by
        obtain ⟨y, -, k7⟩ := lInt_digits j2 gs j4 j3 r1 j5
        rw [← j1, h2] at k7
        cases k7
        rw [rest_eq st2.pos, j1, ← List.append_assoc, List.drop_left' (by simp)]
      have h : (readKeyword file u).1 = b!"obj" := by simpa using h
      rw [(readKeyword_spec file u).1] at h
      obtain ⟨w2, r2, i1, i2, i3⟩ := lKeyword_inv h (by decide)
      rw [hn2] at i1
      rw [hn] at j1
      have hw1 : w1 ≠ [] := by
        rintro rfl
        cases gs with
        | nil => exact j3 rfl
        | cons g gs =>
          rw [List.nil_append, List.map_cons, List.cons_append] at j1
          have := k5 _ _ j1
          have key : ∀ x < 10, isDigit (decDigit x) = true := by decide
          exact this ((isDigit_dec _).1 (key g (j4 g (by simp))))
      refine ⟨ds, gs, _, r2, .mk k2 k4 k3 j2 hw1 j4 j3 i2, i3, ?_⟩
      rw [k1, j1, i1]; simp

theorem Spec.Lost.keyword {file : Bytes} {m : Int} (h : Lost file m) (ps : PS) : (readKeyword file (seek ps m)).1 ≠ b!"xref" := by
  intro e
  rw [(readKeyword_spec _ _).1] at e
  obtain ⟨w, r, h1, h2, h3⟩ := lKeyword_inv e (by decide)
  have hm : m = (m.toNat : Int) := (Int.toNat_of_nonneg h.range.1).symm
  rw [hm, rest, seek_pos] at h1
  exact h.noTable w r h2 h3 h1

theorem Spec.Lost.header {file : Bytes} {m : Int} (h : Lost file m) (ps : PS) : (readObjectHeader file (seek ps m)).1.2.2 = false := by
  cases e : (readObjectHeader file (seek ps m)).1.2.2 with
  | false => rfl
  | true =>
    obtain ⟨ds, gs, hd, r, h1, h2, h3⟩ := header_inv e
    have hm : m = (m.toNat : Int) := (Int.toNat_of_nonneg h.range.1).symm
    rw [hm, rest, seek_pos] at h3
    exact absurd h3 (h.noObject ds gs hd r h1 h2)

/-- Nothing is loaded there. -/
theorem Spec.Lost.load {cfg : Cfg} (get : Env → Int → M IndObj) (rs : Env → Resolver) {m : Int} (h : Lost cfg.file m) (f : Nat) (seen : List Int) (s : LS) :
    ∃ seen' ps, loadXref cfg get rs (f + 1) m seen s = .ok (seen', { s with ps := ps }) := by
  rw [loadXref]
  by_cases hm : m ∈ seen
  · rw [if_pos hm]; exact ⟨seen, s.ps, rfl⟩
  · rw [if_neg hm]
    have hk := h.keyword s.ps
    generalize e1 : readKeyword cfg.file (seek s.ps m) = p at hk
    obtain ⟨kw, ps1⟩ := p
    have hh := h.header ps1
    generalize e2 : readObjectHeader cfg.file (seek ps1 m) = q at hh
    obtain ⟨⟨n, g, ok⟩, ps2⟩ := q
    refine ⟨m :: seen, ps2, ?_⟩
    rw [liftM_bind (a := ()) (p := seek s.ps m) rfl]
    rw [liftM_bind (a := kw) (p := ps1) (by show Res.ok _ = _; rw [← e1])]
    rw [if_neg hk]
    rw [liftM_bind (a := ()) (p := seek ps1 m) rfl]
    rw [liftM_bind (a := (n, g, ok)) (p := ps2) (by show Res.ok _ = _; rw [← e2])]
    have hh : ok = false := hh
    subst hh
    rfl

end Pdf
