import Verif.Psl.Model
set_option autoImplicit false
/-
The handler of a port after a history: that of the last operation on the port.
-/
namespace Eus.Psl

def Op.fd : Op → Nat
  | .add fd _ => fd
  | .remove fd => fd

def handlerOf (l : List Op) (fd : Nat) : Option Nat :=
  match (l.filter fun o => o.fd == fd).getLast? with
  | some (.add _ h) => some h
  | _ => none

end Eus.Psl
