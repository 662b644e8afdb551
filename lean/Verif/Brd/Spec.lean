import Verif.Brd.Model
set_option autoImplicit false
/-
The text a program writes.
-/
namespace Eus.Brd

def Op.written : Op → List Nat
  | .byte c => [c]
  | .text mes => mes
  | .finish => []
  | .add _ => []

def written (l : List Op) : List Nat := l.flatMap Op.written

end Eus.Brd
