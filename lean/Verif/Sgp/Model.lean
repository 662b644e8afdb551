import Verif.Bdv.Model
import Verif.Bits.Model
set_option autoImplicit false
/-
Sign and parity of integers: lisp/l/common.l:921-925, 1023.
-/
namespace Eus.Sgp
open Eus.Num

/-- common.l:921 `zerop` -/
def zerop (n : Num) : Option Bool := NUMEQUAL [n, .fix 0]

/-- common.l:922 `plusp` -/
def plusp (n : Num) : Option Bool := GREATERP [n, .fix 0]

/-- common.l:923 `minusp` -/
def minusp (n : Num) : Option Bool := LESSP [n, .fix 0]

/-- common.l:924 `oddp` -/
def oddp (n : Num) : Ans := LOGBITP (.fix 0) n

/-- common.l:925 `evenp` -/
def evenp (n : Num) : Ans :=
  match LOGBITP (.fix 0) n with
  | .yes => .no
  | .no => .yes
  | e => e

/-- common.l:1023 `signum`; `fuel` is for the division -/
def signum (fuel : Nat) (x : Num) : Res :=
  match zerop x with
  | some true => .ok x
  | some false => Bdv.QUOTIENT fuel [x, ABS x]
  | none => .err

end Eus.Sgp
