import Verif.Lemmas.Scan
import Verif.Lemmas.XrefStream
/-!
What scanning a file for objects finds, and what repair makes of it.
-/

namespace Pdf
open Spec St

theorem liftM_ok {α : Type} {x : LS → M α} {s t : LS} {a : α} (h : liftM x s = .ok (a, t)) : ∃ ps, x s s.ps = .ok (a, ps) ∧ t = { s with ps := ps } := by
  have h : (x s s.ps >>= fun p => Res.ok (p.1, { s with ps := p.2 })) = .ok (a, t) := h
  cases hx : x s s.ps with
  | ok p => rw [hx] at h; cases h; exact ⟨_, rfl, rfl⟩
  | panic w => rw [hx] at h; cases h
  | oof => rw [hx] at h; cases h

theorem header_number {file : Bytes} {s : PS} {v : Int} {n : Nat} (h : lInt (rest file s) = some (v, n)) : (readObjectHeader file s).1.1 = v := by
  obtain ⟨s1, h1, -⟩ := readInt_some h
  rw [readObjectHeader, h1]
  dsimp only
  split <;> rfl

theorem header_none {file : Bytes} {s : PS} (h : lInt (rest file s) = none) : (readObjectHeader file s).1 = (0, 0, false) := by
  obtain ⟨s1, h1, -⟩ := readInt_none h
  rw [readObjectHeader, h1]

theorem looseGap_noDigit {w : Bytes} (h : LooseGap w) (z : Bytes) : NoDigit (w ++ z) :=
  ((looseGap_iff _).1 h).stop z

theorem seek_pos (s : PS) (n : Nat) : (seek s (n : Int)).pos = n := by
  rw [seek, if_neg (by omega)]; exact Int.toNat_natCast _

theorem loose_number {ds : List Nat} {t : Bytes} (h : LooseMarker ds t) {file : Bytes} {s : PS} (hs : rest file s = t) :
    IsInt64Of (Spec.decVal ds) (readObjectHeader file s).1.1 := by
  obtain ⟨h1, h2, w, gs, w', r, rfl, hw, -, -, -⟩ := h
  obtain ⟨y, hy, e⟩ := lInt_digits .nil ds h2 h1 _ (looseGap_noDigit hw (gs.map decDigit ++ (w' ++ (b!"obj" ++ r))))
  rw [header_number (v := y) (by rw [hs]; exact e)]
  exact hy

theorem White.blank {w : Bytes} (h : White w) : Blank w := by
  obtain ⟨-, h⟩ := h
  induction w with
  | nil => exact .nil
  | cons b w ih => exact .ws (h b (by simp)) (ih fun x hx => h x (by simp [hx]))

theorem White.loose {w : Bytes} (h : White w) : LooseGap w := by
  obtain ⟨h1, h⟩ := h
  induction w with
  | nil => exact absurd rfl h1
  | cons b w ih =>
    by_cases hw : w = []
    · subst hw; exact .white (h b (by simp))
    · exact LooseGap.append (w := [b]) (.white (h b (by simp))) (ih hw fun x hx => h x (by simp [hx]))

theorem marker_loose {file pre : Bytes} {ds gs : List Nat} (h : Marker file pre ds gs) : LooseAt file pre ds := by
  obtain ⟨⟨w, w', r, e, hw, hw', -⟩, ⟨n1, n2⟩, ⟨g1, g2⟩, hs, -⟩ := h
  exact ⟨⟨_, e, n1, n2, w, gs, w', r, rfl, White.loose hw, g1, g2, White.loose hw'⟩, hs⟩

theorem marker_header {file pre : Bytes} {ds gs : List Nat} (h : Marker file pre ds gs) (s : PS) (hs : s.pos = pre.length) :
    ∃ n g, IsInt64Of (Spec.decVal ds) n ∧ IsInt64Of (Spec.decVal gs) g ∧ (readObjectHeader file s).1 = (n, g, true) := by
  obtain ⟨⟨w, w', r, e, hw, hw', hr⟩, ⟨n1, n2⟩, ⟨g1, g2⟩, -, -⟩ := h
  obtain ⟨n, g, hn, hg, e1, -⟩ := readObjectHeader_text (HeaderText.mk (w := []) (w1 := w) (w2 := w') .nil n2 n1 (White.blank hw) hw.1 g2 g1 (White.blank hw')) hr file s
    (by rw [hs, e, List.drop_left]; simp only [List.nil_append, List.append_assoc])
  exact ⟨n, g, hn, hg, e1⟩

/-- a match at a position -/
theorem loose_re {ds : List Nat} {t : Bytes} (h : LooseMarker ds t) : objRe t ≠ [] := by
  obtain ⟨m, r, e, hm⟩ := (isMatch_iff t).2 ⟨ds, h⟩
  intro h0
  have := (mem_objRe t r).2 ⟨m, e, hm⟩
  rw [h0] at this
  cases this

theorem match_digit {m : Bytes} (h : IsMatch m) {b : UInt8} (hb : IsDec b) : IsMatch (b :: m) := by
  obtain ⟨d, w, d', w', rfl, hd, hw, hd', hw'⟩ := h
  refine ⟨b :: d, w, d', w', rfl, ⟨by simp, ?_⟩, hw, hd', hw'⟩
  intro x hx
  rcases List.mem_cons.1 hx with rfl | hx
  · exact hb
  · exact hd.2 x hx

/-- What the scan has found up to `off`. -/
structure Found (file : Bytes) (off : Nat) (objs : Assoc Int XrefEntry) : Prop where
  all : ∀ pre ds gs n, Marker file pre ds gs → pre.length < off → IsInt64Of (Spec.decVal ds) n → ∃ o, objs.get? n = some o
  at_ : ∀ n o, objs.get? n = some o → ∃ pre ds, LooseAt file pre ds ∧ IsInt64Of (Spec.decVal ds) n ∧ o.offset = pre.length ∧ o.typ = 1 ∧
    (∀ ds gs, Marker file pre ds gs → IsInt64Of (Spec.decVal gs) o.generation) ∧
    ∀ pre' ds' gs', Marker file pre' ds' gs' → pre'.length < off → IsInt64Of (Spec.decVal ds') n → pre'.length ≤ pre.length
  nodup : (objs.map (·.1)).Nodup
  dict : ∀ n o es, objs.get? n = some o → HasDict file o.offset.toNat es → ∀ ty, (dictOf es).get? b!"Type" = some (.name ty) → o.isXrefStream = decide (ty = b!"XRef")

theorem prefix_unique {file pre pre' t t' : Bytes} (h : file = pre ++ t) (h' : file = pre' ++ t') (hl : pre.length = pre'.length) : pre = pre' ∧ t = t' :=
  List.append_inj (h.symm.trans h') hl

theorem findObjectsLoop_found (cfg : Cfg) (rs : Env → Resolver) : ∀ (f off : Nat) (objs objs' : Assoc Int XrefEntry) (s s' : LS),
    cfg.file.length < f + off → (off = 0 ∨ ∃ a t, cfg.file = a ++ 106 :: t ∧ off = a.length + 1) → Found cfg.file off objs →
    findObjectsLoop cfg rs f off objs s = .ok (objs', s') → ∃ off', Found cfg.file off' objs' ∧ ∀ pre ds gs, Marker cfg.file pre ds gs → pre.length < off' := by
  intro f
  induction f with
  | zero =>
    intro off objs objs' s s' hf _ hF h
    cases h
    refine ⟨off, hF, fun pre ds gs hm => ?_⟩
    obtain ⟨⟨w, w', r, e, -⟩, -⟩ := hm
    have := congrArg List.length e
    rw [List.length_append] at this
    omega
  | succ f ih =>
    intro off objs objs' s s' hf hoff hF h
    rw [findObjectsLoop] at h
    cases hre : findRe objRe 0 (cfg.file.drop off) with
    | none =>
      rw [hre] at h
      cases h
      refine ⟨off, hF, fun pre ds gs hm => ?_⟩
      by_cases hlt : pre.length < off
      · exact hlt
      · exfalso
        obtain ⟨⟨t, e, hl⟩, -⟩ := marker_loose hm
        refine loose_re hl (findRe_none hre (pre.drop off) t ?_)
        rw [e, List.drop_append_of_le_length (by omega)]
    | some p =>
      obtain ⟨i, j⟩ := p
      rw [hre] at h
      dsimp only at h
      obtain ⟨_, t1, h1, h⟩ := bind_ok h
      obtain ⟨ps1, h1, rfl⟩ := liftM_ok h1
      cases h1
      obtain ⟨hd, t2, h2, h⟩ := bind_ok h
      obtain ⟨ps2, h2', rfl⟩ := liftM_ok h2
      have h2 : readObjectHeader cfg.file (seek s.ps ((off + i : Nat) : Int)) = (hd, ps2) := Res.ok.inj h2'
      obtain ⟨n, g, ok⟩ := hd
      dsimp only at h
      obtain ⟨d, t3, h3, h⟩ := bind_ok h
      obtain ⟨ty, t4, h4, h⟩ := bind_ok h
      obtain ⟨a, b, rest', e1, e2, e3, e4, e5⟩ := findRe_some hre
      rw [Nat.zero_add] at e2
      subst e2
      obtain ⟨m, eb, hm⟩ := (mem_objRe b rest').1 e3
      -- positions
      have hofflen : off ≤ cfg.file.length := by
        rcases hoff with rfl | ⟨x, t, e, rfl⟩
        · omega
        · rw [e]; simp
      have hfile : cfg.file = (cfg.file.take off ++ a) ++ (m ++ rest') := by
        rw [List.append_assoc, ← eb, ← e1, List.take_append_drop]
      have hplen : (cfg.file.take off ++ a).length = off + a.length := by
        rw [List.length_append, List.length_take, Nat.min_eq_left hofflen]
      have hj : j = a.length + m.length := by
        rw [e4, eb, List.length_append]; omega
      have hmlen : 0 < m.length := by
        obtain ⟨d, w, d', w', rfl, hd, -⟩ := hm
        have := List.length_pos_iff.2 hd.1
        rw [List.length_append]; omega
      generalize hP : cfg.file.take off ++ a = P at hfile hplen
      have hj2 : off + j = P.length + m.length := by omega
      -- the hit is loose
      obtain ⟨dsl, hloose⟩ := (isMatch_iff (m ++ rest')).1 ⟨m, rest', rfl, hm⟩
      have hrest : rest cfg.file (seek s.ps ((off + a.length : Nat) : Int)) = m ++ rest' := by
        rw [rest, seek_pos, ← hplen, hfile, List.drop_left]
      have hn := loose_number hloose hrest
      rw [h2] at hn
      dsimp only at hn
      have hstart : ∀ x y, P = x ++ [y] → ¬ IsDec y := by
        intro x y e hy
        rcases List.eq_nil_or_concat a with ha | ⟨a', z, ha⟩
        · subst ha
          rw [List.append_nil] at hP
          rcases hoff with rfl | ⟨u, t, eu, rfl⟩
          · rw [List.take_zero] at hP; rw [← hP] at e; simp at e
          · rw [eu, show u ++ 106 :: t = (u ++ [106]) ++ t by simp, List.take_left' (by simp)] at hP
            rw [← hP] at e
            have := (List.append_inj' e rfl).2
            cases this
            exact absurd hy (by unfold IsDec; decide)
        · rw [List.concat_eq_append] at ha
          subst ha
          have hz : z = y := by
            rw [← hP, ← List.append_assoc] at e
            have := (List.append_inj' e rfl).2
            cases this; rfl
          subst hz
          have h0 := e5 a' (z :: b) (by rw [e1, List.append_assoc]; rfl) (by simp)
          have : rest' ∈ objRe (z :: b) := (mem_objRe _ _).2 ⟨z :: m, by rw [eb]; rfl, match_digit hm hy⟩
          rw [h0] at this
          cases this
      have hnew : ∀ pre ds gs, Marker cfg.file pre ds gs → off ≤ pre.length → pre.length < off + j → pre = P := by
        intro pre ds gs hmk hge hlt
        obtain ⟨⟨t, e, hl⟩, -⟩ := marker_loose hmk
        have hge2 : P.length ≤ pre.length := by
          by_cases hlt2 : pre.length < P.length
          · exfalso
            refine loose_re hl (e5 (pre.drop off) t ?_ ?_)
            · rw [e, List.drop_append_of_le_length (by omega)]
            · rw [List.length_drop]; omega
          · omega
        by_cases heq : P.length = pre.length
        · exact (prefix_unique e hfile heq.symm).1
        · exact (no_straddle hmk hfile hm (by omega) (by omega)).elim
      have hkey : ∀ ds gs, Marker cfg.file P ds gs → IsInt64Of (Spec.decVal ds) n ∧ IsInt64Of (Spec.decVal gs) g := by
        intro ds gs hmk
        obtain ⟨n', g', hn', hg', e'⟩ := marker_header hmk (seek s.ps ((off + a.length : Nat) : Int)) (by rw [seek_pos, hplen])
        rw [h2] at e'
        cases e'
        exact ⟨hn', hg'⟩
      refine ih (off + j) _ objs' _ s' (by omega) (.inr ?_) ?_ h
      · obtain ⟨d, w, d', w', rfl, -⟩ := hm
        refine ⟨P ++ (d ++ (w ++ (d' ++ (w' ++ b!"ob")))), rest', ?_, ?_⟩
        · rw [hfile]; simp
        · rw [hj2]; simp only [List.length_append, List.length_cons, List.length_nil]; omega
      · refine ⟨?_, ?_, Assoc.nodup_set hF.nodup _ _, ?_⟩
        rotate_left 2
        · intro n' o es ho hd ty hty
          rw [Assoc.get?_set] at ho
          split at ho
          · cases ho
            obtain ⟨ds, gs, h, w, t, z, e, hh, hw, ht, hin, hbuf⟩ := hd
            rw [Int.toNat_natCast] at hin
            have hstop : Stops (w ++ (60 :: 60 :: (t ++ z))) := by
              cases hw with
              | nil => rintro c u ⟨⟩; decide
              | ws hb _ => rintro c u ⟨⟩; exact fun h => h.1 hb
              | comment _ _ _ => rintro c u ⟨⟩; decide
            obtain ⟨n1, g1, -, -, -, k2⟩ := readObjectHeader_text hh hstop cfg.file (seek s.ps ((off + a.length : Nat) : Int)) (by rw [seek_pos]; exact hin)
            have hgrid := readObjectHeader_inv (grid_inv cfg.file (off + a.length)) (grid_seek (file := cfg.file) s.ps (off := off + a.length) (by
              rw [← hplen, hfile, List.length_append]; omega))
            rw [h2] at k2 hgrid
            obtain ⟨s5, k3, -⟩ := readDictionary_grid hgrid hw ht (by rw [rest_eq k2.pos, rest, seek_pos, hin, List.drop_left]) (by
              have := k2.pos
              rw [seek_pos] at this
              rw [this]
              omega)
            obtain ⟨ps3, h3', rfl⟩ := liftM_ok h3
            rw [show ({ s with ps := ps2 } : LS).ps = ps2 from rfl, k3] at h3'
            cases h3'
            obtain ⟨ps4, h4', rfl⟩ := liftM_ok h4
            rw [Dict.getName_direct _ hty (by simp)] at h4'
            cases h4'
            simp [Obj.asName?]
          · exact hF.dict n' o es ho hd ty hty
        · intro pre ds gs n' hmk hlt hn'
          rw [Assoc.get?_set]
          by_cases hnn : n = n'
          · exact ⟨_, if_pos hnn⟩
          · rw [if_neg hnn]
            by_cases hlt2 : pre.length < off
            · exact hF.all pre ds gs n' hmk hlt2 hn'
            · have := hnew pre ds gs hmk (by omega) hlt
              subst this
              exact absurd (IsInt64Of.unique (hkey ds gs hmk).1 hn') hnn
        · intro n' o ho
          rw [Assoc.get?_set] at ho
          split at ho
          · rename_i hnn
            subst hnn
            cases ho
            refine ⟨P, dsl, ⟨⟨_, hfile, hloose⟩, hstart⟩, hn, by rw [hplen], rfl, fun ds gs hmk => (hkey ds gs hmk).2, ?_⟩
            intro pre' ds' gs' hmk hlt _
            by_cases hlt2 : pre'.length < off
            · omega
            · rw [hnew pre' ds' gs' hmk (by omega) hlt]
          · rename_i hnn
            obtain ⟨pre, ds, h5, h6, h7, h8, h9, h10⟩ := hF.at_ n' o ho
            refine ⟨pre, ds, h5, h6, h7, h8, h9, ?_⟩
            intro pre' ds' gs' hmk hlt hn'
            by_cases hlt2 : pre'.length < off
            · exact h10 pre' ds' gs' hmk hlt2 hn'
            · have := hnew pre' ds' gs' hmk (by omega) hlt
              subst this
              exact absurd (IsInt64Of.unique (hkey ds' gs' hmk).1 hn') hnn

theorem found_nil (file : Bytes) : Found file 0 [] :=
  ⟨fun _ _ _ _ _ h => absurd h (Nat.not_lt_zero _), fun _ _ h => (by cases h), List.nodup_nil, fun _ _ _ h => (by cases h)⟩

/-- What `findObjects` finds. -/
theorem findObjects_found {cfg : Cfg} {rs : Env → Resolver} {objs : Assoc Int XrefEntry} {s s' : LS} (h : findObjects cfg rs s = .ok (objs, s')) :
    (∀ pre ds gs n, Marker cfg.file pre ds gs → IsInt64Of (Spec.decVal ds) n → ∃ o, objs.get? n = some o) ∧
    (∀ n o, objs.get? n = some o → ∃ pre ds, LooseAt cfg.file pre ds ∧ IsInt64Of (Spec.decVal ds) n ∧ o.offset = pre.length ∧ o.typ = 1 ∧
      (∀ ds gs, Marker cfg.file pre ds gs → IsInt64Of (Spec.decVal gs) o.generation) ∧
      ∀ pre' ds' gs', Marker cfg.file pre' ds' gs' → IsInt64Of (Spec.decVal ds') n → pre'.length ≤ pre.length) ∧
    (objs.map (·.1)).Nodup := by
  obtain ⟨off, hF, hoff⟩ := findObjectsLoop_found cfg rs _ 0 [] objs s s' (by omega) (.inl rfl) (found_nil _) h
  refine ⟨fun pre ds gs n hm hn => hF.all pre ds gs n hm (hoff _ _ _ hm) hn, fun n o ho => ?_, hF.nodup⟩
  obtain ⟨pre, ds, h1, h2, h3, h4, h5, h6⟩ := hF.at_ n o ho
  exact ⟨pre, ds, h1, h2, h3, h4, h5, fun pre' ds' gs' hm hn => h6 pre' ds' gs' hm (hoff _ _ _ hm) hn⟩

theorem findObjects_dict {cfg : Cfg} {rs : Env → Resolver} {objs : Assoc Int XrefEntry} {s s' : LS} (h : findObjects cfg rs s = .ok (objs, s')) :
    ∀ n o es, objs.get? n = some o → HasDict cfg.file o.offset.toNat es → ∀ ty, (dictOf es).get? b!"Type" = some (.name ty) → o.isXrefStream = decide (ty = b!"XRef") := by
  obtain ⟨off, hF, -⟩ := findObjectsLoop_found cfg rs _ 0 [] objs s s' (by omega) (.inl rfl) (found_nil _) h
  exact hF.dict

/-! ### repair -/

theorem readObjectHeader_pos (file : Bytes) {s s' : PS} (h : s.pos = s'.pos) : (readObjectHeader file s).1 = (readObjectHeader file s').1 := by
  have hr : rest file s = rest file s' := by rw [rest, rest, h]
  cases h1 : lInt (rest file s) with
  | none => rw [header_none h1, header_none (hr ▸ h1)]
  | some p =>
    obtain ⟨v, n⟩ := p
    obtain ⟨t, e, st⟩ := readInt_some h1
    obtain ⟨t', e', st'⟩ := readInt_some (hr ▸ h1)
    rw [readObjectHeader, readObjectHeader, e, e']
    dsimp only
    have hr2 : rest file t = rest file t' := by rw [rest, rest, st.pos, st'.pos, h]
    cases h2 : lInt (rest file t) with
    | none =>
      obtain ⟨u, e2, -⟩ := readInt_none h2
      obtain ⟨u', e2', -⟩ := readInt_none (hr2 ▸ h2)
      rw [e2, e2']
    | some q =>
      obtain ⟨v2, n2⟩ := q
      obtain ⟨u, e2, st2⟩ := readInt_some h2
      obtain ⟨u', e2', st2'⟩ := readInt_some (hr2 ▸ h2)
      rw [e2, e2']
      dsimp only
      have hr3 : rest file u = rest file u' := by rw [rest, rest, st2.pos, st2'.pos, st.pos, st'.pos, h]
      rw [(readKeyword_spec file u).1, (readKeyword_spec file u').1, hr3]

/-- what repair does to one entry, given what was scanned; `x` is what the header at the entry's offset reads -/
def repaired (x : Int × Int × Bool) (n : Int) (o e : XrefEntry) : XrefEntry :=
  if x.2.2 = true ∨ x.1 ≠ n then { e with offset := o.offset } else e

theorem repairOne_run (cfg : Cfg) (n : Int) (o : XrefEntry) (s : LS) : ∃ s', repairOne cfg n o s = .ok ((), s') ∧ s'.trailer = s.trailer ∧ s'.sh = s.sh ∧
    (∀ m, m ≠ n → s'.xref.get? m = s.xref.get? m) ∧ (s.xref.get? n = none → s'.xref.get? n = some o) ∧
    ∀ e, s.xref.get? n = some e → ∃ ps : PS, s'.xref.get? n = some (repaired (readObjectHeader cfg.file (seek ps e.offset)).1 n o e) := by
  rw [repairOne]
  cases he : s.xref.get? n with
  | none =>
    refine ⟨_, rfl, rfl, rfl, fun m hm => Assoc.get?_set_ne _ _ (Ne.symm hm), fun _ => Assoc.get?_set_self _ _ _, fun e h => by cases h⟩
  | some e =>
    dsimp only
    by_cases hc : (readObjectHeader cfg.file (seek s.ps e.offset)).1.2.2 = true ∨ (readObjectHeader cfg.file (seek s.ps e.offset)).1.1 ≠ n
    · rw [if_pos hc]
      refine ⟨_, rfl, rfl, rfl, fun m hm => Assoc.get?_set_ne _ _ (Ne.symm hm), fun h => (by cases h), fun e' h => ?_⟩
      cases h
      refine ⟨s.ps, ?_⟩
      rw [repaired, if_pos hc]
      exact Assoc.get?_set_self _ _ _
    · rw [if_neg hc]
      refine ⟨_, rfl, rfl, rfl, fun m _ => rfl, fun h => (by cases h), fun e' h => ?_⟩
      cases h
      refine ⟨s.ps, ?_⟩
      rw [repaired, if_neg hc]
      exact he

theorem repairAll_run (cfg : Cfg) : ∀ (objs : Assoc Int XrefEntry), (objs.map (·.1)).Nodup → ∀ s, ∃ s', repairAll cfg objs s = .ok ((), s') ∧ s'.trailer = s.trailer ∧ s'.sh = s.sh ∧
    (∀ n, objs.get? n = none → s'.xref.get? n = s.xref.get? n) ∧
    ∀ n o, objs.get? n = some o → (s.xref.get? n = none → s'.xref.get? n = some o) ∧
      ∀ e, s.xref.get? n = some e → ∃ ps : PS, s'.xref.get? n = some (repaired (readObjectHeader cfg.file (seek ps e.offset)).1 n o e) := by
  intro objs
  induction objs with
  | nil => intro _ s; exact ⟨s, rfl, rfl, rfl, fun _ _ => rfl, fun _ _ h => by cases h⟩
  | cons p objs ih =>
    intro hnd s
    obtain ⟨m, o⟩ := p
    rw [List.map_cons, List.nodup_cons] at hnd
    obtain ⟨s1, h1, ht1, hs1, h2, h3, h4⟩ := repairOne_run cfg m o s
    obtain ⟨s2, g1, ht2, hs2, g2, g3⟩ := ih hnd.2 s1
    have hm : Assoc.get? objs m = none := Assoc.get?_none_iff.2 hnd.1
    refine ⟨s2, ?_, ht2.trans ht1, hs2.trans hs1, ?_, ?_⟩
    · rw [repairAll, bind_of_ok h1]; exact g1
    · intro n hn
      rw [Assoc.get?_cons] at hn
      split at hn
      · cases hn
      · rename_i hne
        rw [g2 n hn, h2 n (fun h => hne h.symm)]
    · intro n o' hn
      rw [Assoc.get?_cons] at hn
      split at hn
      · rename_i heq
        dsimp only at heq
        subst heq
        cases hn
        rw [g2 m hm]
        exact ⟨h3, h4⟩
      · rename_i hne
        have := g3 n o' hn
        rw [h2 n (fun h => hne h.symm)] at this
        exact this

theorem split_digits : ∀ t : Bytes, ∃ d r, t = d ++ r ∧ (∀ b ∈ d, IsDec b) ∧ NoDigit r := by
  intro t
  induction t with
  | nil => exact ⟨[], [], rfl, by simp, by rintro b t ⟨⟩⟩
  | cons b t ih =>
    by_cases hb : IsDec b
    · obtain ⟨d, r, rfl, h1, h2⟩ := ih
      refine ⟨b :: d, r, rfl, ?_, h2⟩
      intro x hx
      rcases List.mem_cons.1 hx with rfl | hx
      · exact hb
      · exact h1 x hx
    · refine ⟨[], b :: t, rfl, by simp, ?_⟩
      rintro c u h
      obtain ⟨rfl, -⟩ := List.cons.inj h
      exact hb

/-- where a number was read, it is -/
theorem lInt_inv {l : Bytes} {v : Int} {k : Nat} (h : lInt l = some (v, k)) : ∃ (w : Bytes) (ds : List Nat) (r : Bytes), l = w ++ (ds.map decDigit ++ r) ∧ Blank w ∧ ds ≠ [] ∧
    (∀ d ∈ ds, d < 10) ∧ NoDigit r ∧ IsInt64Of (Spec.decVal ds) v := by
  cases hl : l.drop (skipWs false l) with
  | nil => rw [lInt, hl] at h; cases h
  | cons b t =>
    have hb : isDigit b = true := by
      rw [lInt, hl] at h
      dsimp only at h
      split at h
      · assumption
      · cases h
    have hw := (blank_take l false (by rw [hl]; simp)).1 rfl
    obtain ⟨d, r, rfl, h1, h2⟩ := split_digits t
    obtain ⟨ds, e, hne, hd⟩ := digits_eq (d := b :: d) ⟨by simp, by
      intro x hx
      rcases List.mem_cons.1 hx with rfl | hx
      · exact (isDigit_dec _).1 hb
      · exact h1 x hx⟩
    have e2 : l = l.take (skipWs false l) ++ (ds.map decDigit ++ r) := by
      rw [← e, List.cons_append, ← hl, List.take_append_drop]
    obtain ⟨y, hy, h3⟩ := lInt_digits hw ds hd hne r h2
    rw [← e2, h] at h3
    cases h3
    exact ⟨_, ds, r, e2, hw, hne, hd, h2, hy⟩

end Pdf
