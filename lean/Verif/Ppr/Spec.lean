import Verif.Rd.Spec
import Verif.Ppr.Model
set_option autoImplicit false
/-
The forms the pretty printer is made for.  Nothing here depends on how it prints.
-/
namespace Eus.Ppr
open Eus.Rd Eus.Num

/-- Characters of a name that is written without bars: capital letters, digits and `! $ % & * + - . / < = > ? @ [ ] ^ _ { } ~`. -/
def PlainChar (c : Nat) : Prop :=
  (65 ≤ c ∧ c ≤ 90) ∨ (48 ≤ c ∧ c ≤ 57) ∨
    c ∈ [33, 36, 37, 38, 42, 43, 45, 46, 47, 60, 61, 62, 63, 64, 91, 93, 94, 95, 123, 125, 126]

/-- A name that is written without bars. -/
def PlainName (base : Nat) (n : List Nat) : Prop := (∀ c ∈ n, PlainChar c) ∧ ¬ AllDigits base n

/-- A list that ends in `nil`. -/
def Proper : T → Prop
  | .cons _ d => Proper d
  | t => t = NIL

/-- Variables and values in turn. -/
def Pairs (base : Nat) : T → Prop
  | .cons (.sym n) (.cons _ d) => PlainName base n ∧ Pairs base d
  | .cons _ _ => False
  | t => t = NIL

/-- Parameters and a body: the parameters are an atom or a proper list. -/
def ArgsBody : T → Prop
  | .cons (.cons x y) _ => Proper (.cons x y)
  | .cons _ _ => True
  | _ => False

/-- A name, parameters and a body. -/
def NameArgsBody (base : Nat) : T → Prop
  | .cons (.sym n) r => PlainName base n ∧ ArgsBody r
  | _ => False

/-- The syntax of the forms with a layout of their own. -/
structure Shape (base : Nat) (a d : T) : Prop where
  quote : a = .sym (nm "QUOTE") → ∃ x, d = .cons x NIL
  defn : a ∈ [T.sym (nm "DEFUN"), .sym (nm "DEFCLASS"), .sym (nm "DEFMACRO")] → NameArgsBody base d
  lam : a ∈ [T.sym (nm "LAMBDA"), .sym (nm "MACRO")] → ArgsBody d
  set : a ∈ [T.sym (nm "SET"), .sym (nm "SETQ")] → Pairs base d

mutual
/-- Every list in the tree that begins with one of these symbols has the syntax. -/
def Ppable (base : Nat) : T → Prop
  | .cons a d => Ppable base a ∧ PpTail base d ∧ Shape base a d
  | _ => True
/-- The same for the elements of a list. -/
def PpTail (base : Nat) : T → Prop
  | .cons a d => Ppable base a ∧ PpTail base d
  | _ => True
end

/-- `print-size` has a value for the tree and all its parts. -/
def Sized (L : Layout) : T → Prop
  | .cons a d => (∀ lim, (L.size (.cons a d) lim).isSome) ∧ Sized L a ∧ Sized L d
  | t => ∀ lim, (L.size t lim).isSome

/-- No integer in the tree has more than 15 characters. -/
def Short : T → Prop
  | .cons a d => Short a ∧ Short d
  | .int n => -10 ^ 14 < n.val ∧ n.val < 10 ^ 15
  | _ => True

end Eus.Ppr
