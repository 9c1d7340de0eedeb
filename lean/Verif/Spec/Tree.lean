import Verif.Model.Getters
/-!
Page trees and name trees as graphs of numbered objects.
-/

namespace Pdf.Spec

/-- Resolving number `n` gives, whenever it returns, an object whose value is `g n`. -/
def Graph (rs : Resolver) (g : Int → Obj) : Prop := ∀ n s o s', rs n s = .ok (o, s') → o.value = g n

/-- what a value stands for: the target of a reference, else itself -/
def target (g : Int → Obj) : Obj → Obj
  | .ref n _ => g n
  | o => o

/-- the array under a key, itself or through a reference; otherwise empty -/
def arrayAt (g : Int → Obj) (d : Dict) (key : Bytes) : List Obj :=
  match d.get? key with
  | none => []
  | some o =>
    match target g o with
    | .arr l => l
    | _ => []

/-- the kids of a node -/
def kidsOf (g : Int → Obj) (d : Dict) : List Obj := arrayAt g d b!"Kids"

/-- the names in a node of a name tree -/
def namesOf (g : Int → Obj) (d : Dict) : List Obj := arrayAt g d b!"Names"

/-- the object numbers referred to -/
def refs : List Obj → List Int
  | [] => []
  | .ref n _ :: t => n :: refs t
  | _ :: t => refs t

/-- the dictionary that a number stands for -/
def asDict : Obj → Option Dict
  | .dict d => some d
  | _ => none

/-- the numbers that the kids of object `n` refer to -/
def nextOf (g : Int → Obj) (n : Int) : List Int :=
  match g n with
  | .dict d => refs (kidsOf g d)
  | _ => []

/-- Depth-first search: visiting, in order, what has not been `seen` of a list of nodes, and below each
visited node what has not been seen by then, gives `out`. -/
inductive Dfs (next : Int → List Int) : (seen todo out : List Int) → Prop
  | done {seen} : Dfs next seen [] []
  | skip {seen n todo out} : n ∈ seen → Dfs next seen todo out → Dfs next seen (n :: todo) out
  | visit {seen n todo below rest} : n ∉ seen → Dfs next (n :: seen) (next n) below → Dfs next (n :: below ++ seen) todo rest →
      Dfs next seen (n :: todo) (n :: below ++ rest)

/-- `n` can be reached from one of `start` by following `next`. -/
inductive Reach (next : Int → List Int) (start : List Int) : Int → Prop
  | start {n} : n ∈ start → Reach next start n
  | step {n m} : Reach next start n → m ∈ next n → Reach next start m

/-- Depth-first search in a name tree, where kids may also be given directly: the kids in a list whose
numbers have not been `seen`, and all that is below them, have these `names` and these `numbers`. -/
inductive NameDfs (g : Int → Obj) : (seen : List Int) → (todo names : List Obj) → (numbers : List Int) → Prop
  | done {seen} : NameDfs g seen [] [] []
  | skip {seen n gen todo names numbers} : n ∈ seen → NameDfs g seen todo names numbers → NameDfs g seen (.ref n gen :: todo) names numbers
  | visit {seen n gen todo b bn r rn} : n ∉ seen → NameDfs g (n :: seen) (kidsOf g ((asDict (g n)).getD [])) b bn →
      NameDfs g (n :: bn ++ seen) todo r rn →
      NameDfs g seen (.ref n gen :: todo) (namesOf g ((asDict (g n)).getD []) ++ b ++ r) (n :: bn ++ rn)
  | direct {seen o todo b bn r rn} : (∀ n gen, o ≠ .ref n gen) → NameDfs g seen (kidsOf g ((asDict o).getD [])) b bn →
      NameDfs g (bn ++ seen) todo r rn →
      NameDfs g seen (o :: todo) (namesOf g ((asDict o).getD []) ++ b ++ r) (bn ++ rn)

/-- The nodes of the name tree with this root. -/
inductive Node (g : Int → Obj) (root : Dict) : Dict → Prop
  | root : Node g root root
  | direct {d e} : Node g root d → .dict e ∈ kidsOf g d → Node g root e
  | indirect {d e n gen} : Node g root d → .ref n gen ∈ kidsOf g d → g n = .dict e → Node g root e

/-- There is an endless way down from this node that uses only kids given as dictionaries, not by their numbers. (Then some
list of kids has its own number: `1 0 obj [<</Kids 1 0 R>>] endobj`.) -/
def Endless (g : Int → Obj) (d : Dict) : Prop := ∃ way : Nat → Dict, way 0 = d ∧ ∀ i, .dict (way (i + 1)) ∈ kidsOf g (way i)

end Pdf.Spec
