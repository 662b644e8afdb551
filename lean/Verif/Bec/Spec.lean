import Verif.Bec.Model
set_option autoImplicit false
/-
How many bits an element takes, and what it means that the elements of a vector lie within its cell.
-/
namespace Eus.Bec

def Elm.bits : Elm → Nat
  | .bit => 1
  | .char | .byte => 8
  | _ => 64

/-- all elements are in the cell -/
def Fits (v : Vec) : Prop := v.size * (v.elm.bits : Int) ≤ 64 * (v.data : Int)

/-- a vector whose elements are stored in the cell one after the other -/
def Plain (e : Elm) : Prop := e ≠ .fixed ∧ e ≠ .foreign ∧ e ≠ .pointer

end Eus.Bec
