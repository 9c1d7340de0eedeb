import Verif.Model.Monad
/-!
Relations on computations: "defined wherever the other is" (used for fuel) and "every run relates the
states" (used for invariants).
-/

namespace Pdf
namespace St
variable {σ α β : Type}

theorem bind_ok {x : St σ α} {f : α → St σ β} {s : σ} {r : β × σ} (h : (x >>= f) s = .ok r) :
    ∃ a t, x s = .ok (a, t) ∧ f a t = .ok r := by
  rw [bind_run] at h
  cases hx : x s with
  | ok p => rw [hx] at h; exact ⟨p.1, p.2, rfl, h⟩
  | panic w => rw [hx] at h; cases h
  | oof => rw [hx] at h; cases h

theorem bind_of_ok {x : St σ α} {f : α → St σ β} {s t : σ} {a : α} (h : x s = .ok (a, t)) : (x >>= f) s = f a t := by
  rw [bind_run, h]; rfl

theorem bind_of_panic {x : St σ α} {f : α → St σ β} {s : σ} {w : String} (h : x s = .panic w) : (x >>= f) s = .panic w := by
  rw [bind_run, h]; rfl

theorem bind_of_oof {x : St σ α} {f : α → St σ β} {s : σ} (h : x s = .oof) : (x >>= f) s = .oof := by
  rw [bind_run, h]; rfl

theorem ofFun_bind {f : σ → α × σ} {k : α → St σ β} {s : σ} : (ofFun f >>= k) s = k (f s).1 (f s).2 := rfl

/-- Wherever `x` does not run out of fuel, `y` does the same. -/
def Le (x y : St σ α) : Prop := ∀ s, x s = .oof ∨ x s = y s

theorem Le.refl (x : St σ α) : Le x x := fun _ => .inr rfl

theorem Le.trans {x y z : St σ α} (h1 : Le x y) (h2 : Le y z) : Le x z := fun s => by
  rcases h1 s with h | h
  · exact .inl h
  · rw [h]; exact h2 s

theorem Le.bind {x x' : St σ α} {f f' : α → St σ β} (hx : Le x x') (hf : ∀ a, Le (f a) (f' a)) : Le (x >>= f) (x' >>= f') := by
  intro s
  rcases hx s with h | h
  · exact .inl (bind_of_oof h)
  · cases hr : x s with
    | ok p =>
      rw [bind_of_ok (a := p.1) (t := p.2) hr, bind_of_ok (a := p.1) (t := p.2) (h ▸ hr)]
      exact hf _ _
    | panic w => exact .inr (by rw [bind_of_panic hr, bind_of_panic (h ▸ hr)])
    | oof => exact .inl (bind_of_oof hr)

theorem Le.ok {x y : St σ α} (h : Le x y) {s : σ} {r : α × σ} (hx : x s = .ok r) : y s = .ok r := by
  rcases h s with h | h
  · rw [h] at hx; cases hx
  · rw [← h]; exact hx

theorem Le.ne_oof {x y : St σ α} (h : Le x y) {s : σ} (hx : x s ≠ .oof) : y s = x s := by
  rcases h s with h | h
  · exact absurd h hx
  · exact h.symm

theorem Le.oof_left (y : St σ α) : Le (fun _ => .oof) y := fun _ => .inl rfl

/-- Every run of `x` that returns relates the state before to the state after. -/
def Pres (R : σ → σ → Prop) (x : St σ α) : Prop := ∀ s a t, x s = .ok (a, t) → R s t

/-- What `Pres` needs to compose. -/
structure Pre (R : σ → σ → Prop) : Prop where
  refl : ∀ s, R s s
  trans : ∀ {s t u}, R s t → R t u → R s u

theorem Pres.pure {R : σ → σ → Prop} (hR : Pre R) (a : α) : Pres R (pure a : St σ α) := by
  intro s b t h
  cases h
  exact hR.refl s

theorem Pres.bind {R : σ → σ → Prop} (hR : Pre R) {x : St σ α} {f : α → St σ β} (hx : Pres R x) (hf : ∀ a, Pres R (f a)) :
    Pres R (x >>= f) := by
  intro s b t h
  obtain ⟨a, u, h1, h2⟩ := bind_ok h
  exact hR.trans (hx _ _ _ h1) (hf _ _ _ _ h2)

/-- A version in which the continuation may use what the first part returned. -/
theorem Pres.bind' {R : σ → σ → Prop} (hR : Pre R) {x : St σ α} {f : α → St σ β} (hx : Pres R x) (hf : ∀ s a t, x s = .ok (a, t) → Pres R (f a)) :
    Pres R (x >>= f) := by
  intro s b t h
  obtain ⟨a, u, h1, h2⟩ := bind_ok h
  exact hR.trans (hx _ _ _ h1) (hf _ _ _ h1 _ _ _ h2)

theorem Pres.ofRes {R : σ → σ → Prop} (hR : Pre R) (x : Res α) : Pres R (ofRes x : St σ α) := by
  intro s b t h
  rw [ofRes_run] at h
  cases x with
  | ok a => cases h; exact hR.refl s
  | panic w => cases h
  | oof => cases h

theorem Pres.throw {R : σ → σ → Prop} (w : String) : Pres R (throw w : St σ α) := by
  intro s b t h; cases h

theorem Pres.oof {R : σ → σ → Prop} : Pres R (fun _ => .oof : St σ α) := by
  intro s b t h; cases h

theorem Pres.ofFun {R : σ → σ → Prop} {f : σ → α × σ} (h : ∀ s, R s (f s).2) : Pres R (ofFun f) := by
  intro s b t hr
  rw [ofFun_run] at hr
  injection hr with hr
  have := h s
  rw [hr] at this
  exact this

/-- What holds of every value returned. -/
def Ret (P : α → Prop) (x : St σ α) : Prop := ∀ s a t, x s = .ok (a, t) → P a

theorem Ret.pure {P : α → Prop} {a : α} (h : P a) : Ret P (pure a : St σ α) := by
  intro s b t hr; cases hr; exact h

theorem Ret.bind {P : α → Prop} {Q : β → Prop} {x : St σ α} {f : α → St σ β} (hx : Ret P x) (hf : ∀ a, P a → Ret Q (f a)) : Ret Q (x >>= f) := by
  intro s b t h
  obtain ⟨a, u, h1, h2⟩ := bind_ok h
  exact hf a (hx _ _ _ h1) _ _ _ h2

theorem Ret.bind' {Q : β → Prop} {x : St σ α} {f : α → St σ β} (hf : ∀ a, Ret Q (f a)) : Ret Q (x >>= f) :=
  Ret.bind (P := fun _ => True) (fun _ _ _ _ => trivial) (fun a _ => hf a)

theorem Ret.mono {P Q : α → Prop} {x : St σ α} (h : Ret P x) (hpq : ∀ a, P a → Q a) : Ret Q x :=
  fun s a t hr => hpq a (h s a t hr)

theorem Ret.oof {P : α → Prop} : Ret P (fun _ => .oof : St σ α) := by
  intro s b t h; cases h

/-- `x` never runs out of fuel. -/
def Term (x : St σ α) : Prop := ∀ s, x s ≠ .oof

theorem Term.pure (a : α) : Term (pure a : St σ α) := by intro s h; cases h

theorem Term.bind {x : St σ α} {f : α → St σ β} (hx : Term x) (hf : ∀ a, Term (f a)) : Term (x >>= f) := by
  intro s h
  cases hr : x s with
  | ok p => rw [bind_of_ok (a := p.1) (t := p.2) hr] at h; exact hf _ _ h
  | panic w => rw [bind_of_panic hr] at h; cases h
  | oof => exact hx s hr

theorem Term.bind' {P : α → Prop} {x : St σ α} {f : α → St σ β} (hx : Term x) (hp : Ret P x) (hf : ∀ a, P a → Term (f a)) : Term (x >>= f) := by
  intro s h
  cases hr : x s with
  | ok p => rw [bind_of_ok (a := p.1) (t := p.2) hr] at h; exact hf _ (hp _ _ _ hr) _ h
  | panic w => rw [bind_of_panic hr] at h; cases h
  | oof => exact hx s hr

theorem Term.ofFun (f : σ → α × σ) : Term (ofFun f) := by intro s h; cases h

theorem Term.ofRes {x : Res α} (hx : x ≠ .oof) : Term (ofRes x : St σ α) := by
  intro s h
  rw [ofRes_run] at h
  cases x with
  | ok a => cases h
  | panic w => cases h
  | oof => exact hx rfl

theorem Term.throw (w : String) : Term (throw w : St σ α) := by intro s h; cases h

end St
end Pdf
