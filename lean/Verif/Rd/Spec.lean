import Verif.Rd.Model
import Verif.Num.Spec
import Mathlib.Data.List.Forall2
set_option autoImplicit false
/-
What the text of an object means, independently of the printer and the reader.
-/
namespace Eus.Rd
open Eus.Num

/-- The number written by a sequence of digit values, most significant first. -/
def posVal (base : Nat) : List Nat → Nat
  | [] => 0
  | d :: ds => d * base ^ ds.length + posVal base ds

/-- The character codes of a digit: `0`-`9`, then letters in upper or in lower case. -/
def DigitCode (c d : Nat) : Prop :=
  (d < 10 ∧ c = 48 + d) ∨ (10 ≤ d ∧ d < 36 ∧ (c = 65 + (d - 10) ∨ c = 97 + (d - 10)))

/-- `cs` is a non-empty sequence of digits in base `base` and writes `n`. -/
def Digits (base : Nat) (cs : List Nat) (n : Nat) : Prop :=
  ∃ ds : List Nat, ds ≠ [] ∧ (∀ d ∈ ds, d < base) ∧ List.Forall₂ DigitCode cs ds ∧ posVal base ds = n

/-- `txt` is a numeral in base `base` of the integer `z`: an optional sign and digits. -/
def Numeral (base : Nat) (txt : List Nat) (z : Int) : Prop :=
  (∃ n : Nat, Digits base txt n ∧ z = n) ∨
  (∃ (cs : List Nat) (n : Nat), txt = 43 :: cs ∧ Digits base cs n ∧ z = n) ∨
  (∃ (cs : List Nat) (n : Nat), txt = 45 :: cs ∧ Digits base cs n ∧ z = -(n : Int))

/-- A numeral in the usual form: no plus sign and no leading zeros. -/
def Usual (txt : List Nat) : Prop :=
  ∀ w, txt ≠ 43 :: w ∧ txt ≠ 45 :: 48 :: w ∧ (txt = 48 :: w → w = [])

/-- White space or a terminating macro character: what ends a token. -/
def EndsToken (c : Nat) : Prop :=
  c ∈ [9, 10, 12, 13, 32] ∨ c ∈ [34, 39, 40, 41, 44, 59, 96]

/-- The text after a token: nothing, or something starting with a character that ends tokens. -/
def Delim (rest : List Nat) : Prop := ∀ c ∈ rest.head?, EndsToken c

/-- The token is one of those the reader misreads: fewer than eight characters for an integer that
is not a 32-bit `int`. -/
def ShortWide (txt : List Nat) (z : Int) : Prop :=
  txt.length < 8 ∧ ¬ (-2 ^ 31 ≤ z ∧ z < 2 ^ 31)

/-! ### symbols -/

/-- The bytes of `l` are digits of the base (upper case). -/
def AllDigits (base : Nat) (l : List Nat) : Prop :=
  ∀ c ∈ l, (48 ≤ c ∧ c ≤ 57 ∧ c < 48 + base) ∨ (65 ≤ c ∧ c < 65 + (base - 10))

/-- A possible sign. -/
def OptSign (l : List Nat) : Prop := l = [] ∨ l = [43] ∨ l = [45]

/-- An exponent: one of the letters `e d f l`, a possible sign, possibly digits. -/
def Exponent (base : Nat) (l : List Nat) : Prop :=
  ∃ x sg ds, l = x :: (sg ++ ds) ∧ x ∈ [68, 69, 70, 76, 100, 101, 102, 108] ∧ OptSign sg ∧
    AllDigits base ds

/-- The names with the syntax of a number: `12`, `-12.`, `1.5`, `.5`, `-1.5e-3`, `1e5`, `1/2`, … -/
def NumberSyntax (base : Nat) (tok : List Nat) : Prop :=
  ∃ sg body, tok = sg ++ body ∧ OptSign sg ∧
    ∃ ds, AllDigits base ds ∧
      ((ds ≠ [] ∧ body = ds) ∨
       (body = ds ++ [46] ∧ tok ≠ [46]) ∨
       (∃ es, es ≠ [] ∧ AllDigits base es ∧ body = ds ++ 46 :: es) ∨
       (∃ es x, AllDigits base es ∧ Exponent base x ∧ body = ds ++ 46 :: (es ++ x)) ∨
       (ds ≠ [] ∧ ∃ x, Exponent base x ∧ body = ds ++ x) ∨
       (ds ≠ [] ∧ ∃ es, es ≠ [] ∧ AllDigits base es ∧ body = ds ++ 47 :: es))

/-- A character that is not a control character the reader rejects, and not a backslash. -/
def NameChar (c : Nat) : Prop :=
  c < 256 ∧ c ≠ 92 ∧ (c = 8 ∨ c = 9 ∨ c = 10 ∨ c = 12 ∨ c = 13 ∨ 32 ≤ c)

/-- The symbol names the printer and the reader handle, as symbols of the current package. -/
structure GoodName (base : Nat) (name : List Nat) : Prop where
  chars : ∀ c ∈ name, NameChar c
  /-- the limit of tokens -/
  short : name.length < 1024
  /-- the printer's buffer -/
  bars : name.length ≤ 255 ∨ 124 ∉ name
  /-- not the syntax of a number, unless it is made of digits only -/
  notNumber : NumberSyntax base name → AllDigits base name
  /-- the first character is ASCII -/
  ascii : ∀ c ∈ name.head?, c < 128

/-- The same for keywords, which need neither of the last two conditions. -/
structure GoodKey (name : List Nat) : Prop where
  chars : ∀ c ∈ name, NameChar c
  short : name.length < 1023
  bars : name.length ≤ 255 ∨ 124 ∉ name

/-! ### trees -/

/-- The number of elements of a list (the conses along the `cdr`s). -/
def spine : T → Nat
  | .cons _ d => spine d + 1
  | _ => 0

/-- Twice the number of lists around the most deeply nested element. -/
def depth : T → Nat
  | .cons a d => max (depth a + 2) (depth d)
  | _ => 0

/-- The integers read back: not too many digits for a token, and not one that would be written with
fewer than eight characters without being a 32-bit `int` (which only happens in bases above 21). -/
def GoodInt (base : Nat) (z : Int) : Prop :=
  z.natAbs < base ^ 1022 ∧ ((-2 ^ 31 ≤ z ∧ z < 2 ^ 31) ∨ (base : Int) ^ 7 ≤ z ∨ z ≤ -(base : Int) ^ 6)

/-- The trees printed and read back: finite trees of conses whose leaves are canonical integers,
strings, keywords and symbols with good names other than `.` (and not `.` followed by a character that
is not ASCII), no list in them longer than `len`. -/
def GoodTree (base len : Nat) : T → Prop
  | .int n => n.Canonical ∧ GoodInt base n.val
  | .str _ => True
  | .sym n => GoodName base n ∧ n ≠ [46] ∧ ∀ c w, n = 46 :: c :: w → c < 128
  | .key n => GoodKey n
  | .cons a d => GoodTree base len a ∧ GoodTree base len d ∧ spine d < len
  | _ => False

/-! ### comments -/

/-- Where the comment ends whose opening `#|` has been read and that has `d` more comments open in it:
`#|` opens one, `|#` closes one.  The result is what follows. -/
def afterComment : Nat → List Nat → Option (List Nat)
  | d, a :: b :: s =>
    if a = 124 ∧ b = 35 then
      match d with
      | 0 => some s
      | d + 1 => afterComment d s
    else if a = 35 ∧ b = 124 then afterComment (d + 1) s
    else afterComment d (b :: s)
  | _, _ => none

end Eus.Rd
