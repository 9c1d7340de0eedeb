import Verif.Model.Parser
/-!
State-passing shorthand for the functions that move the parser's reader: `M α` is a computation that
reads and changes the reader state and may panic.
-/

namespace Pdf

/-- Computations over a state `σ` that may panic or run out of fuel. -/
def St (σ α : Type) : Type := σ → Res (α × σ)

namespace St
variable {σ α β : Type}

/-- return without effect -/
def ret (a : α) : St σ α := fun s => .ok (a, s)
/-- statement sequencing -/
def andThen (x : St σ α) (f : α → St σ β) : St σ β := fun s => x s >>= fun p => f p.1 p.2

instance : Monad (St σ) where
  pure := ret
  bind := andThen

/-- a Go panic -/
def throw (why : String) : St σ α := fun _ => .panic why
/-- a value computed by a function that may panic -/
def ofRes (x : Res α) : St σ α := fun s => x >>= fun a => .ok (a, s)
/-- a state-passing function that cannot panic -/
def ofFun (f : σ → α × σ) : St σ α := fun s => .ok (f s)

@[simp] theorem pure_run (a : α) (s : σ) : (pure a : St σ α) s = .ok (a, s) := rfl
@[simp] theorem ret_run (a : α) (s : σ) : (ret a : St σ α) s = .ok (a, s) := rfl
theorem bind_run (x : St σ α) (f : α → St σ β) (s : σ) :
    (x >>= f) s = (x s >>= fun p => f p.1 p.2) := rfl
@[simp] theorem throw_run (w : String) (s : σ) : (throw w : St σ α) s = .panic w := rfl
@[simp] theorem ofFun_run (f : σ → α × σ) (s : σ) : (ofFun f) s = .ok (f s) := rfl
theorem ofRes_run (x : Res α) (s : σ) : (ofRes x : St σ α) s = (x >>= fun a => .ok (a, s)) := rfl

end St

/-- Computations of a `Parser` (effects on its reader and error log). -/
abbrev M := St PS

/-- How references are resolved: reference.go:22-48 `Resolve`/`ResolveStream` return the `Value` and
the `Stream` of the object this yields; both leave the reader's offset where it was. -/
abbrev Resolver := Int → M IndObj

/-- parser.go:462-465 `Seek(offset, io.SeekStart)` -/
def seekM (off : Int) : M Unit := fun s => .ok ((), seek s off)

/-! ### Loops over maps -/

/-- The order in which Go's `range` visits maps, which the language leaves open: `at_ k n` is the
order of the `k`-th loop if the map has `n` entries, as the list of the positions visited. -/
structure Order where
  at_ : Nat → Nat → List Nat
  perm : ∀ k n, (at_ k n).Perm (List.range n)

/-- the entries in the order of the model's lists -/
def Order.default : Order := ⟨fun _ n => List.range n, fun _ _ => .refl _⟩

instance : Inhabited Order := ⟨Order.default⟩

/-- the orders of all loops but the first -/
def Order.next (o : Order) : Order := ⟨fun k => o.at_ (k + 1), fun k => o.perm (k + 1)⟩

/-- the entries of a map as the next `range` loop visits them -/
def Order.visit {α : Type} (o : Order) (l : List α) : List α := (o.at_ 0 l.length).filterMap fun i => l[i]?

end Pdf
