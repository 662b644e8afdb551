import Verif.Bq.Model
set_option autoImplicit false
/-
What a backquoted template stands for, independently of the code it is turned into.
-/
namespace Eus.Bq

/-- The elements of a proper list. -/
def elements : Sx → Option (List Sx)
  | .nil => some []
  | .cons a d => (elements d).map (a :: ·)
  | _ => none

/-- Elements in front of a tail. -/
def inFront (l : List Sx) (r : Sx) : Sx := l.foldr Sx.cons r

section
variable {S : Type} (ev : Sx → S → Res S Sx)

/-- The template with the values of its forms in their places; the forms are evaluated once each, from left to right.  `,@` of an atom is an error; `,@` of a list that does not end in NIL and `,@` that is not in a list have no meaning. -/
def fill : Txt → S → Res S Sx
  | .atom x, s => .ok x s
  | .comma t, s => ev t.read s
  | .commaAt _, _ => .unspec
  | .bq _, _ => .unspec
  | .vec t, s => (fill t s).bind fun x s => .ok (.vec x) s
  | .cons (.commaAt t) d, s => (ev t.read s).bind fun v s => (fill d s).bind fun r s =>
    match elements v with
    | some l => .ok (inFront l r) s
    | none => match v with | .cons _ _ => .unspec | _ => .err
  | .cons a d, s => (fill a s).bind fun x s => (fill d s).bind fun y s => .ok (.cons x y) s

end

/-- No `,` or `,@` inside. -/
def noComma : Sx → Bool
  | .sym s => s != .comma && s != .commaAt
  | .cons a d => noComma a && noComma d
  | .vec l => noComma l
  | _ => true

def isAtom : Sx → Bool
  | .cons _ _ => false
  | .vec l => noComma l
  | _ => true

/-- Templates without a backquote in them, and without `,` in vectors: atoms are atoms and not the symbols that stand for `,` and `,@`; a list is not `(, . x)` written out. -/
inductive Template : Txt → Prop
  | atom {x} : isAtom x = true → x ≠ .sym .comma → x ≠ .sym .commaAt → Template (.atom x)
  | comma (t : Txt) : Template (.comma t)
  | splice (t : Txt) {d} : Template d → Template (.cons (.commaAt t) d)
  | cons {a d} : Template a → Template d → Template (.cons a d)

end Eus.Bq
