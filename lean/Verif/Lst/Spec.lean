import Verif.Lst.Model
set_option autoImplicit false
/-! What the list functions are supposed to compute; none of this uses the definitions of `Model`
(except the type of trees and of operations). -/
namespace Eus.Lst
variable {α κ β A V : Type}

/-- Some element of `l` matches the key `k`. -/
def Matches (t : κ → κ → Bool) (key : α → κ) (k : κ) (l : List α) : Prop := ∃ y ∈ l, t k (key y) = true

/-- `l` is sorted: no element is greater than a later one. -/
def Sorted (le : α → α → Prop) (l : List α) : Prop := l.Pairwise le

/-- `pred` compares compatibly with the order `le`: a strict or non-strict version of it. -/
structure Compatible (le : α → α → Prop) (pred : α → α → Bool) : Prop where
  trans : ∀ a b c, le a b → le b c → le a c
  pos : ∀ a b, pred a b = true → le a b
  neg : ∀ a b, pred a b = false → le b a

/-- The non-empty suffixes of a list, the longest first. -/
def suffixes : List α → List (List α)
  | [] => []
  | x :: l => (x :: l) :: suffixes l

/-- The `i`-th column of a list of lists, if all of them are long enough. -/
def IsColumn (args : List (List α)) (i : Nat) (xs : List α) : Prop :=
  xs.length = args.length ∧ ∀ (k : Nat) (a : List α), args[k]? = some a → ∃ x, a[i]? = some x ∧ xs[k]? = some x

/-- Property lists as partial maps: what one operation does to the map. -/
noncomputable def specStep (m : A → Option V) : POp A V → A → Option V
  | .put a v => open scoped Classical in fun b => if b = a then some v else m b
  | .rem a => open scoped Classical in fun b => if b = a then none else m b

/-- Property lists as partial maps: a sequence of operations. -/
noncomputable def specRun (ops : List (POp A V)) : A → Option V := ops.foldl specStep (fun _ => none)

/-- Replace every maximal subtree satisfying `p` by `x`. -/
inductive Substituted (p : Tree α → Prop) (x : Tree α) : Tree α → Tree α → Prop where
  | here {z} : p z → Substituted p x z x
  | nil : ¬ p .nil → Substituted p x .nil .nil
  | atom {a} : ¬ p (.atom a) → Substituted p x (.atom a) (.atom a)
  | cons {l r l' r'} : ¬ p (.cons l r) → Substituted p x l l' → Substituted p x r r' →
      Substituted p x (.cons l r) (.cons l' r')

/-- The atoms other than NIL of a tree, from left to right. -/
def leaves : Tree α → List α
  | .nil => []
  | .atom a => [a]
  | .cons l r => leaves l ++ leaves r

end Eus.Lst
