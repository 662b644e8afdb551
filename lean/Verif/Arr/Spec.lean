import Mathlib.Algebra.BigOperators.Group.List.Basic
import Mathlib.Data.List.Forall2
import Verif.Arr.Model
set_option autoImplicit false
/-! What the properties of arrays and bit vectors say, apart from the code. -/
namespace Eus.Arr
variable {α : Type}

/-- Valid subscripts: as many as dimensions, each at least 0 and below its dimension. -/
def Valid (dims is : List Int) : Prop := List.Forall₂ (fun d i => 0 ≤ i ∧ i < d) dims is

/-- Position of an element in row-major order. -/
def rowMajor : List Int → List Int → Int
  | _ :: ds, i :: is => i * ds.prod + rowMajor ds is
  | _, _ => 0

/-- An array whose elements all lie in its entity and that is small enough for C's `int`. -/
structure Ary.WF (a : Ary α) : Prop where
  small : a.dims.prod < 2 ^ 31
  off : 0 ≤ a.offset
  inside : a.offset + a.dims.prod ≤ a.entity.length
  size : (a.entity.length : Int) < 2 ^ 31

/-- Nested sequences `s` have the dimensions `ds`. -/
def Shaped : (ds : List Nat) → Nest α ds.length → Prop
  | [], _ => True
  | d :: ds, s => List.length s = d ∧ ∀ t ∈ (show List (Nest α ds.length) from s), Shaped ds t

/-- The element of nested sequences at the given subscripts, first subscript outermost. -/
def nestGet : (n : Nat) → Nest α n → List Nat → Option α
  | 0, x, [] => some x
  | n + 1, s, i :: is => ((show List (Nest α n) from s)[i]?).bind fun t => nestGet n t is
  | _, _, _ => none

/-- Bit `m` of a bit vector, `none` outside. -/
def BV.bit (v : BV) (m : Nat) : Option Bool := match BIT v m with | .ok b => some b | _ => none

/-- makes.c:425: number of words. -/
def BV.WF (v : BV) : Prop := v.words.length = (v.size + 63) / 64

/-- A bounded stack that grows: the elements, bottom first, and the capacity. -/
def stackStep (s : List α × Nat) : FOp α → List α × Nat
  | .push x => if s.1.length < s.2 then (s.1 ++ [x], s.2) else s
  | .pushExtend x => (s.1 ++ [x], if s.1.length < s.2 then s.2 else 2 * s.1.length)
  | .pop => (s.1.dropLast, s.2)

end Eus.Arr
