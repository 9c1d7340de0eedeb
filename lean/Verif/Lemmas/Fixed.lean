import Verif.Lemmas.LogEq
/-!
When no offset of the cross reference map is negative, what `GetObject` and `Resolve` return does not
depend on the state of the reader.
-/

namespace Pdf

/-- The outcome, from state `s`: a value and the errors logged, or a failure. -/
def Agrees {α : Type} (s : PS) (y : Res (α × PS)) : Res (α × List Err) → Prop
  | .ok (a, es) => ∃ s', y = .ok (a, s') ∧ s'.log = s.log ++ es
  | .panic w => y = .panic w
  | .oof => y = .oof

/-- The computation has the same outcome from every state. -/
def Fixed {α : Type} (x : M α) (r : Res (α × List Err)) : Prop := ∀ s, Agrees s (x s) r

theorem Fixed.pure {α : Type} (a : α) : Fixed (pure a : M α) (.ok (a, [])) := fun s => ⟨s, rfl, by simp⟩

theorem Fixed.ofRes {α : Type} (x : Res α) : Fixed (St.ofRes x : M α) (x >>= fun a => .ok (a, [])) := by
  intro s
  cases x with
  | ok a => exact ⟨s, rfl, by simp⟩
  | panic w => rfl
  | oof => rfl

theorem Fixed.bind {α β : Type} {x : M α} {f : α → M β} {r : Res (α × List Err)} {g : α → Res (β × List Err)} (hx : Fixed x r) (hf : ∀ a, Fixed (f a) (g a)) :
    Fixed (x >>= f) (r >>= fun p => g p.1 >>= fun q => .ok (q.1, p.2 ++ q.2)) := by
  intro s
  have h := hx s
  cases r with
  | panic w => exact bind_of_panic' h
  | oof => exact bind_of_oof' h
  | ok p =>
    obtain ⟨a, es⟩ := p
    obtain ⟨s1, h1, h2⟩ := h
    have h3 := hf a s1
    show Agrees s ((x >>= f) s) (g a >>= fun q => Res.ok (q.1, es ++ q.2))
    have hb : (x >>= f) s = f a s1 := by
      show (x s >>= fun p => f p.1 p.2) = _
      rw [h1]; rfl
    rw [hb]
    cases hg : g a with
    | panic w => rw [hg] at h3; exact h3
    | oof => rw [hg] at h3; exact h3
    | ok q =>
      rw [hg] at h3
      obtain ⟨s2, h4, h5⟩ := h3
      exact ⟨s2, h4, by rw [h5, h2, List.append_assoc]⟩
where
  bind_of_panic' {x : M α} {f : α → M β} {s : PS} {w : String} (h : x s = .panic w) : (x >>= f) s = .panic w := by
    show (x s >>= fun p => f p.1 p.2) = _
    rw [h]; rfl
  bind_of_oof' {x : M α} {f : α → M β} {s : PS} (h : x s = .oof) : (x >>= f) s = .oof := by
    show (x s >>= fun p => f p.1 p.2) = _
    rw [h]; rfl

/-- No entry in use has a negative offset. -/
def NonnegOffsets (env : Env) : Prop := ∀ n e, env.xref.get? n = some e → e.typ = 1 → 0 ≤ e.offset

theorem seek_base {s : PS} {off : Int} (h : 0 ≤ off) : seek s off = addLog s.log ⟨off.toNat, off.toNat, false, []⟩ := by
  rw [seek, if_neg (by omega), addLog]; simp

theorem fixed_seek {α : Type} {x : M α} (hx : LogFree x) {off : Int} (h : 0 ≤ off) :
    ∃ r, Fixed (fun s => x (seek s off)) r := by
  cases hb : x ⟨off.toNat, off.toNat, false, []⟩ with
  | ok p =>
    obtain ⟨a, t⟩ := p
    refine ⟨.ok (a, t.log), fun s => ⟨addLog s.log t, ?_, rfl⟩⟩
    show x (seek s off) = _
    rw [seek_base h, hx, hb]; rfl
  | panic w =>
    refine ⟨.panic w, fun s => ?_⟩
    show x (seek s off) = _
    rw [seek_base h, hx, hb]; rfl
  | oof =>
    refine ⟨.oof, fun s => ?_⟩
    show x (seek s off) = _
    rw [seek_base h, hx, hb]; rfl

theorem getObjectF_fixed {env : Env} (hoff : NonnegOffsets env) {rs : Resolver} (hrs : ∀ n, LogFree (rs n)) (n : Int) : ∃ r, Fixed (getObjectF env rs n) r := by
  rw [getObjectF]
  split
  · exact ⟨_, .pure _⟩
  · rename_i e he
    split
    · rename_i ht
      exact fixed_seek (x := do
        let _ ← St.ofFun (readObjectHeader env.file)
        let (v, _) ← readObj env.file (decrypt env.ext env.verbose (newDecryptor env.ext (if e.isEncrypted then env.sh.stringFilter else .none) n e.generation))
        let st ← getStreamF env rs n e v
        pure (IndObj.mk n e.generation v st))
        ((LogFree.ofFun fun p s => readObjectHeader_al p _ s).bind fun _ =>
          LogFree.bind (fun p s => readObj_al p _ _ s) fun _ => (getStreamF_lf hrs _ _ _ _).bind fun _ => .pure _) (hoff n e he ht)
    · exact ⟨_, .pure _⟩

theorem resolve_fixed {env : Env} (hoff : NonnegOffsets env) : ∀ f seen n, ∃ r, Fixed (resolve env f seen n) r := by
  intro f
  induction f with
  | zero => intro seen n; exact ⟨.oof, fun s => by simp only [resolve]; rfl⟩
  | succ f ih =>
    intro seen n
    rw [resolve]
    split
    · exact ⟨_, .pure _⟩
    · obtain ⟨r, hr⟩ := getObjectF_fixed hoff (fun m => (resolve_lf env f [] m).keepOffset) n
      have : ∀ o : IndObj, ∃ q, Fixed (match o.value with
        | .ref m _ => resolve env f (n :: seen) m
        | _ => pure o) q := by
        intro o
        split
        · exact ih _ _
        · exact ⟨_, .pure _⟩
      obtain ⟨g, hg⟩ := Classical.axiomOfChoice this
      exact ⟨_, hr.bind hg⟩

theorem Fixed.keepOffset {α : Type} {x : M α} {r : Res (α × List Err)} (hx : Fixed x r) : Fixed (keepOffset x) r := by
  intro s
  have h := hx s
  cases r with
  | panic w =>
    show (x s >>= _) = _
    rw [show x s = .panic w from h]; rfl
  | oof =>
    show (x s >>= _) = _
    rw [show x s = .oof from h]; rfl
  | ok p =>
    obtain ⟨a, es⟩ := p
    obtain ⟨s', h1, h2⟩ := h
    refine ⟨seek s' (currentOffset s), ?_, ?_⟩
    · show (x s >>= _) = _
      rw [h1]; rfl
    · rw [seek]
      split <;> exact h2

theorem resolver_fixed {env : Env} (hoff : NonnegOffsets env) (f : Nat) (n : Int) : ∃ r, Fixed (resolver env f n) r := by
  obtain ⟨r, hr⟩ := resolve_fixed hoff f [] n
  exact ⟨r, hr.keepOffset⟩

theorem getObject_fixed {env : Env} (hoff : NonnegOffsets env) (f : Nat) (n : Int) : ∃ r, Fixed (getObject env f n) r :=
  getObjectF_fixed hoff (resolver_lf env f) n

end Pdf
