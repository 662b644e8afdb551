import Verif.Rd.Spec
import Verif.Ary.Model
set_option autoImplicit false
/-
What it means that an array has been read back.
-/
namespace Eus.Ary
open Eus.Rd Eus.Num

/-- The number of elements -/
def total : List Nat → Nat
  | [] => 1
  | d :: ds => d * total ds

/-- The elements that belong to the array, in row-major order. -/
def window {α : Type} (v : List α) (off : Nat) (ds : List Nat) : List α := (v.drop off).take (total ds)

/-- The array lies in its entity. -/
def Inside {α : Type} (v : List α) (off : Nat) (ds : List Nat) : Prop := off + total ds ≤ v.length

/-- The dimensions of what is printed: the fill pointer of an array of one dimension, otherwise its dimensions. -/
def Shape (a : Ary) (ds : List Nat) : Prop :=
  (∃ d n, a.dims = [d] ∧ a.fp = some n ∧ ds = [n]) ∨ (ds = a.dims ∧ (a.fp = none ∨ a.dims.length ≠ 1))

/-- One to seven dimensions, none of them 0 (unless it is the only one) -/
def GoodDims (ds : List Nat) : Prop := ds ≠ [] ∧ ds.length ≤ 7 ∧ (ds = [0] ∨ ∀ d ∈ ds, 0 < d)

/-- The first element is not a list (other than NIL). -/
def FirstAtom : List T → Prop
  | .cons _ _ :: _ => False
  | _ => True

end Eus.Ary
