import Verif.Pix.Model
set_option autoImplicit false
/-
The pixel of a picture at column x and row y.
-/
namespace Eus.Pix

def Img.at (m : Img) (x y : Nat) : Option Nat := m.ent[y * m.w + x]?

structure Img.Ok (m : Img) : Prop where
  size : m.ent.length = m.w * m.h
  bytes : ∀ p ∈ m.ent, p < 256

end Eus.Pix
