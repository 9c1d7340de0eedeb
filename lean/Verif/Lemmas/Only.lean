import Verif.Lemmas.Walk
import Verif.Lemmas.Post
/-!
Which files the steps of the extraction write to.
-/

namespace Pdf
open St Spec

/-- Every run writes only to errors.txt and to the files in `K`. -/
def Only (K : Kind → Prop) {α : Type} (x : X α) : Prop := Post x fun _ ws => ∀ w ∈ ws, w.kind = .errors ∨ K w.kind

theorem Only.bind {K : Kind → Prop} {α β : Type} {x : X α} {f : α → X β} (hx : Only K x) (hf : ∀ a, Only K (f a)) : Only K (x >>= f) :=
  Post.bind hx fun a ws hw => (hf a).mono fun b vs hv w hm => (List.mem_append.1 hm).elim (hw w) (hv w)

theorem Only.liftX {K : Kind → Prop} {α : Type} {x : M α} (h : LogFree x) : Only K (liftX x) :=
  (Post.liftX h).mono fun _ _ hq w hw => .inl (hq.1 w hw)

theorem Only.runAll {K : Kind → Prop} : ∀ l : List (X Unit), (∀ x ∈ l, Only K x) → Only K (runAll l) := by
  intro l
  induction l with
  | nil => intro _; exact Post.pure (by simp)
  | cons x t ih =>
    intro hl
    exact (hl x (by simp)).bind fun _ => ih fun y hy => hl y (by simp [hy])

theorem only_one {K : Kind → Prop} {α : Type} {x : X α} {w : Write} (h : Post x fun _ ws => ws = [w]) (hk : K w.kind) : Only K x :=
  h.mono fun _ ws hw v hv => by rw [hw, List.mem_singleton] at hv; rw [hv]; exact .inr hk

theorem logFree_cl {rs : Resolver} (hrs : ∀ n, LogFree (rs n)) : Cl rs LogFree := ⟨LogFree.pure, LogFree.bind, LogFree.ofRes, hrs⟩

theorem only_xcl (ext : Ext) {rs : Resolver} (hrs : ∀ n, LogFree (rs n)) (K : Kind → Prop) : XCl ext rs K LogFree (Only K) where
  cl := logFree_cl hrs
  pure := fun a => Post.pure (by simp)
  bind := Only.bind
  ofRes := fun x => Post.ofRes (by simp)
  lift := Only.liftX
  js := fun b hk => only_one (Post.putJs b) hk
  url := fun b hk => only_one (Post.putUrl b) hk
  command := fun f p hk => only_one (Post.putCommand f p) hk
  file := fun n hk => only_one (Post.putFile _ n) hk
  dump := fun n d hf hd => (Post.dumpFile ext n d).mono fun _ ws hw v hv => by
    rw [hw] at hv
    simp only [List.mem_cons, List.not_mem_nil, or_false] at hv
    rcases hv with rfl | rfl
    · exact .inr hf
    · exact .inr hd
  text := fun fonts c hk => Only.bind (Post.ofRes (by simp)) fun b => only_one (Post.putText b) hk
  raw := fun o hk => (Post.putRaw o).mono fun _ ws ⟨v, _, hw⟩ w hm => by
    rw [hw, List.mem_singleton] at hm
    rw [hm]
    exact .inr hk
  shuffle := fun l f hf => (Post.shuffle l).bind fun l' ws h => by
    rw [h.1]
    refine Only.runAll _ fun x hx => ?_
    obtain ⟨a, ha, rfl⟩ := List.mem_map.1 hx
    exact hf a (h.2.mem_iff.1 ha)
  fonts := fun fonts d hb => Only.bind ((Post.shuffle _).mono fun _ ws h => by rw [h.1]; simp) fun ks =>
    Only.bind (Only.liftX ((logFree_cl hrs).pageFonts _ _ _)) hb

end Pdf
