import Verif.Lemmas.Load
/-!
The cross reference map keeps one entry per number.
-/

namespace Pdf
open St

/-- one entry per number -/
def KeysOnce (s : LS) : Prop := (s.xref.map (·.1)).Nodup

/-- The computation keeps that. -/
def KeepsKeys {α : Type} (x : L α) : Prop := ∀ s a t, x s = .ok (a, t) → KeysOnce s → KeysOnce t

theorem KeepsKeys.pure {α : Type} (a : α) : KeepsKeys (pure a : L α) := by
  intro s b t h hs; cases h; exact hs

theorem KeepsKeys.bind {α β : Type} {x : L α} {f : α → L β} (hx : KeepsKeys x) (hf : ∀ a, KeepsKeys (f a)) : KeepsKeys (x >>= f) := by
  intro s b t h hs
  obtain ⟨a, s1, h1, h2⟩ := bind_ok h
  exact hf a _ _ _ h2 (hx _ _ _ h1 hs)

theorem KeepsKeys.liftM {α : Type} (x : LS → M α) : KeepsKeys (Pdf.liftM x) := by
  intro s a t h hs
  obtain ⟨ps, -, rfl⟩ := liftM_ok h
  exact hs

theorem KeepsKeys.ofRes {α : Type} (x : Res α) : KeepsKeys (St.ofRes x : L α) := by
  intro s a t h hs
  cases x with
  | ok a => cases h; exact hs
  | panic w => cases h
  | oof => cases h

theorem KeepsKeys.setXref (n : Int) (e : XrefEntry) : KeepsKeys (setXref n e) := by
  intro s a t h hs; cases h; exact Assoc.nodup_set hs _ _

theorem KeepsKeys.mergeTrailer (d : Dict) : KeepsKeys (mergeTrailer d) := by
  intro s a t h hs; cases h; exact hs

theorem KeepsKeys.mergeXref (x : Assoc Int XrefEntry) : KeepsKeys (mergeXref x) := by
  intro s a t h hs; cases h
  exact Assoc.nodup_foldl (fun p : Int × XrefEntry => p) x hs

theorem KeepsKeys.oof {α : Type} : KeepsKeys (fun _ => .oof : L α) := by intro s a t h; cases h

section
variable (cfg : Cfg) (get : Env → Int → M IndObj) (rs : Env → Resolver)

theorem streamEntries_keys (w0 w1 w2 : Int) : ∀ n num d, KeepsKeys (streamEntries w0 w1 w2 n num d) := by
  intro n
  induction n with
  | zero => intro num d; exact .pure _
  | succ n ih =>
    intro num d
    rw [streamEntries]
    refine (KeepsKeys.ofRes _).bind fun a => ?_
    split
    · exact .pure _
    refine (KeepsKeys.ofRes _).bind fun a => ?_
    split
    · exact .pure _
    refine (KeepsKeys.ofRes _).bind fun a => ?_
    split
    · exact .pure _
    exact (KeepsKeys.setXref _ _).bind fun _ => ih _ _

theorem streamSections_keys (index : List Obj) (w0 w1 w2 : Int) : ∀ k i d, KeepsKeys (streamSections cfg rs index w0 w1 w2 k i d) := by
  intro k
  induction k with
  | zero => intro i d; exact .pure _
  | succ k ih =>
    intro i d
    rw [streamSections]
    refine (KeepsKeys.liftM _).bind fun a => ?_
    split
    · exact .pure _
    refine (KeepsKeys.liftM _).bind fun a => ?_
    split
    · exact .pure _
    refine (streamEntries_keys _ _ _ _ _ _).bind fun a => ?_
    split
    · exact .pure _
    · exact ih _ _

theorem streamBody_keys (o : IndObj) (t : Dict) (off : Int) : KeepsKeys (streamBody cfg rs o t off) := by
  rw [streamBody]
  refine KeepsKeys.bind ?_ fun a => ?_
  · rw [streamIndex]
    refine (KeepsKeys.liftM _).bind fun a => ?_
    split
    · exact .pure _
    refine (KeepsKeys.liftM _).bind fun a => ?_
    split <;> exact .pure _
  split
  · exact .pure _
  refine (KeepsKeys.liftM _).bind fun a => ?_
  split
  · exact .pure _
  refine (KeepsKeys.liftM _).bind fun a => ?_
  split
  · exact .pure _
  refine (KeepsKeys.liftM _).bind fun a => ?_
  split
  · exact .pure _
  refine (KeepsKeys.liftM _).bind fun a => ?_
  split
  · exact .pure _
  refine (streamSections_keys _ _ _ _ _ _ _ _ _).bind fun a => ?_
  split
  · exact .setXref _ _
  · exact .pure _

theorem loadXref_keys : ∀ f off seen, KeepsKeys (loadXref cfg get rs f off seen) := by
  intro f
  induction f with
  | zero => intro off seen; rw [loadXref]; exact .oof
  | succ f ih =>
    intro off seen
    rw [loadXref]
    split
    · exact .pure _
    refine (KeepsKeys.liftM _).bind fun _ => (KeepsKeys.liftM _).bind fun kw => ?_
    split
    · refine (KeepsKeys.liftM _).bind fun xrefs => (KeepsKeys.liftM _).bind fun _ => (KeepsKeys.liftM _).bind fun trailer => (KeepsKeys.liftM _).bind fun prev => ?_
      split
      · exact (ih _ _).bind fun _ => (KeepsKeys.mergeTrailer _).bind fun _ => (KeepsKeys.mergeXref _).bind fun _ => .pure _
      · exact (KeepsKeys.mergeTrailer _).bind fun _ => (KeepsKeys.mergeXref _).bind fun _ => .pure _
    · refine (KeepsKeys.liftM _).bind fun _ => (KeepsKeys.liftM _).bind fun h => ?_
      split
      split
      · refine (KeepsKeys.setXref _ _).bind fun _ => (KeepsKeys.liftM _).bind fun _ => (KeepsKeys.liftM _).bind fun o => ?_
        split
        · refine (KeepsKeys.liftM _).bind fun prev => ?_
          split
          · exact (ih _ _).bind fun _ => (KeepsKeys.mergeTrailer _).bind fun _ => (streamBody_keys _ _ _ _ _).bind fun _ => .pure _
          · exact (KeepsKeys.pure _).bind fun _ => (KeepsKeys.mergeTrailer _).bind fun _ => (streamBody_keys _ _ _ _ _).bind fun _ => .pure _
        · exact .pure _
      · exact .pure _

theorem loadAll_keys (fuel : Nat) : ∀ l, KeepsKeys (loadAll cfg get rs fuel l) := by
  intro l
  induction l with
  | nil => exact .pure _
  | cons o t ih => exact (loadXref_keys cfg get rs fuel o []).bind fun _ => ih

theorem findObjectsLoop_keys : ∀ k off objs, KeepsKeys (findObjectsLoop cfg rs k off objs) := by
  intro k
  induction k with
  | zero => intro off objs; exact .pure _
  | succ k ih =>
    intro off objs
    rw [findObjectsLoop]
    split
    · exact .pure _
    · refine (KeepsKeys.liftM _).bind fun _ => (KeepsKeys.liftM _).bind fun _ => ?_
      split
      exact (KeepsKeys.liftM _).bind fun _ => (KeepsKeys.liftM _).bind fun _ => ih _ _

theorem loadPlan_keys : KeepsKeys (loadPlan cfg rs) :=
  (KeepsKeys.liftM _).bind fun _ => (findObjectsLoop_keys _ _ _ _ _).bind fun _ => (KeepsKeys.liftM _).bind fun _ => .pure _

theorem repairAll_keys : ∀ l, KeepsKeys (repairAll cfg l) := by
  intro l
  induction l with
  | nil => exact .pure _
  | cons p t ih =>
    refine KeepsKeys.bind ?_ fun _ => ih
    intro s a u h hs
    rw [repairOne] at h
    split at h
    · dsimp only at h
      split at h
      · cases h; exact Assoc.nodup_set hs _ _
      · cases h; exact hs
    · cases h; exact Assoc.nodup_set hs _ _

theorem markEncrypt_keys (o : Obj) : KeepsKeys (markEncrypt o) := by
  intro s a t h hs
  unfold markEncrypt at h
  split at h
  · split at h
    · cases h; exact Assoc.nodup_set hs _ _
    · cases h; exact hs
  · cases h; exact hs

theorem setPassword_keys (ord : Order) (pw : Bytes) : KeepsKeys (setPassword cfg rs ord pw) := by
  intro s a t h hs
  rw [setPassword] at h
  cases hx : secInit cfg.ext (fun sh => rs { s.env cfg with sh := sh }) ord pw s.trailer s.sh s.ps with
  | ok p => rw [hx] at h; cases h; exact hs
  | panic w => rw [hx] at h; cases h
  | oof => rw [hx] at h; cases h

theorem loadF_keys (ord : Order) (fx : Nat) (pw : Bytes) : KeepsKeys (loadF cfg get rs ord fx pw) := by
  rw [loadF]
  refine (loadPlan_keys _ _).bind fun p => ?_
  split
  refine (loadAll_keys _ _ _ _ _).bind fun _ => (repairAll_keys _ _).bind fun _ => KeepsKeys.bind ?_ fun e => ?_
  · intro s a t h hs; cases h; exact hs
  · split
    · exact (markEncrypt_keys _).bind fun _ => setPassword_keys _ _ _ _
    · exact .pure _

end

theorem load_keys {cfg : Cfg} {ord : Order} {f fx : Nat} {pw : Bytes} {err : Option EncErr} {ls : LS} (h : load cfg ord f fx pw LS.init = .ok (err, ls)) :
    (ls.xref.map (·.1)).Nodup :=
  loadF_keys cfg _ _ ord fx pw _ _ _ h List.nodup_nil

end Pdf
