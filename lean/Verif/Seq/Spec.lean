set_option autoImplicit false
/-
Specification of the sequence functions: what they mean on plain lists of elements.
-/
namespace Eus.Seq
variable {α : Type}

/-- without the first `c` elements satisfying `p` -/
def dropFirst (p : α → Bool) : Nat → List α → List α
  | _, [] => []
  | 0, l => l
  | c + 1, x :: l => if p x then dropFirst p c l else x :: dropFirst p (c + 1) l

/-- with the first `c` elements satisfying `p` replaced by `new` -/
def replaceFirst (p : α → Bool) (new : α) : Nat → List α → List α
  | _, [] => []
  | 0, l => l
  | c + 1, x :: l => if p x then new :: replaceFirst p new c l else x :: replaceFirst p new (c + 1) l

/-- apply `f` to the elements with index in `[s, e)` (for `s ≤ e`), keep the others -/
def within (f : List α → List α) (s e : Nat) (l : List α) : List α :=
  l.take s ++ f ((l.drop s).take (e - s)) ++ (l.drop s).drop (e - s)

/-- the elements with index in `[s, e)` -/
def seg (s e : Nat) (l : List α) : List α := (l.drop s).take (e - s)

end Eus.Seq

namespace Eus.Seq
variable {α : Type}

/-- the shortest prefix containing `c` elements satisfying `p` (everything if there are fewer) -/
def upTo (p : α → Bool) : Nat → List α → List α
  | _, [] => []
  | 0, _ => []
  | c + 1, x :: l => if p x then x :: upTo p c l else x :: upTo p (c + 1) l

/-- the elements that no later element matches -/
def keepLast (test : α → α → Bool) : List α → List α
  | [] => []
  | x :: l => if l.any (test x) then keepLast test l else x :: keepLast test l

end Eus.Seq
