import Verif.Srch.Model
import Verif.Lst.Spec
import Mathlib.Data.List.Chain
set_option autoImplicit false
/-! What the properties of searching and sorting talk about. -/
namespace Eus.Srch

variable {N α : Type}

/-- `p` arises from `q` by `n` extensions. -/
inductive Desc (extend : List N → List (List N)) : Nat → List N → List N → Prop
  | refl (q : List N) : Desc extend 0 q q
  | step {n : Nat} {q r p : List N} : r ∈ extend q → Desc extend n r p → Desc extend (n + 1) q p

/-- `r` is a path of the graph from `s` to `t`: it follows edges and repeats no node. -/
structure SimplePath (nb : N → List N) (s t : N) (r : List N) : Prop where
  first : r.head? = some s
  last : r.getLast? = some t
  edges : r.IsChain (fun a b => b ∈ nb a)
  nodup : r.Nodup

/-- One can walk from `s` to `t` in `n` steps. -/
inductive Walk (nb : N → List N) : Nat → N → N → Prop
  | nil (s : N) : Walk nb 0 s s
  | snoc {n : Nat} {s x t : N} : Walk nb n s x → t ∈ nb x → Walk nb (n + 1) s t

/-- `sort` rearranges its argument. -/
def Rearranges (sort : List α → List α) : Prop := ∀ l, (sort l).Perm l

/-- `sort` rearranges its argument into an order. -/
def Sorts (R : α → α → Prop) (sort : List α → List α) : Prop :=
  ∀ l, (sort l).Perm l ∧ Eus.Lst.Sorted R (sort l)

/-- The answers an algorithm gets from a predicate without side effects lead to this result. -/
def Alg.result (le : α → α → Bool) : Alg α → List α
  | .stop l => l
  | .ask x y neg pos => if le x y then neg.result le else pos.result le

/-- Elements that the algorithm compares when the predicate answers `le`. -/
def Alg.compares (le : α → α → Bool) : Alg α → α → α → Prop
  | .stop _, _, _ => False
  | .ask x y neg pos, a, b => (a = x ∧ b = y) ∨ (if le x y then neg.compares le a b else pos.compares le a b)

end Eus.Srch
